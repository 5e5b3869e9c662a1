import Verif.Proof.Rup
import Verif.Common.SortBy
/-!
# The propagation-redundancy checker

Models `crates/logicaffeine_proof/src/pr.rs` (the stateless checker), `proof.rs` and the automorphism
test of `symmetry_detect.rs`. `none` is an out-of-bounds panic.
-/

namespace Verif.Proof

/-- `Perm` (`proof.rs:26-29`): the image of each positive literal. Nothing forces it to be a
bijection, and the model does not either. -/
abbrev Perm := List Lit

/-- `Perm::apply` (`proof.rs:43-50`). -/
def Perm.apply (σ : Perm) (l : Lit) : Option Lit :=
  match σ[l.var]? with
  | none => none
  | some img => some (if l.pos then img else img.negated)

/-- `Perm::apply_clause` (`proof.rs:53-55`). -/
def Perm.applyClause (σ : Perm) : Clause → Option Clause
  | [] => some []
  | l :: ls =>
    match σ.apply l with
    | none => none
    | some m =>
      match Perm.applyClause σ ls with
      | none => none
      | some ms => some (m :: ms)

/-- `Witness` (`proof.rs:88-95`). -/
inductive Witness where
  | assignment (ls : List Lit)
  | substitution (σ : Perm)
  deriving Repr

/-- `ProofStep` (`proof.rs:101-109`). -/
inductive ProofStep where
  | rup (c : Clause)
  | pr (c : Clause) (w : Witness)
  | delete (c : Clause)
  deriving Repr

/-- Literal code `var * 2 + (negative)` (`pr.rs:67`). -/
def Lit.code (l : Lit) : Nat := l.var * 2 + (if l.pos then 0 else 1)

/-- `Vec::dedup`: drop elements equal to their predecessor. -/
def dedupAdj {A : Type} [DecidableEq A] : List A → List A
  | [] => []
  | [x] => [x]
  | x :: y :: r => if x = y then dedupAdj (y :: r) else x :: dedupAdj (y :: r)

/-- `canon_clause` / `clause_key` (`pr.rs:66-71`, `symmetry_detect.rs:19-24`). -/
def canonClause (c : Clause) : List Nat :=
  dedupAdj (sortBy (fun a b : Nat => decide (a ≤ b)) (c.map Lit.code))

/-- `sigma.apply(Lit::pos(v)) != Lit::pos(v)` for `v < nv` (`symmetry_detect.rs:38-39`). -/
def Perm.moves (σ : Perm) (v : Nat) : Bool :=
  match σ[v]? with
  | none => false
  | some img => img ≠ ⟨v, true⟩

/-- The clause loop (`symmetry_detect.rs:45-52`). -/
def automorphismLoop (db : List Clause) (σ : Perm) : List Clause → Option Bool
  | [] => some true
  | c :: cs =>
    if c.any (fun l => σ.moves l.var) then
      match σ.applyClause c with
      | none => none
      | some d =>
        if canonClause d ∈ db.map canonClause then automorphismLoop db σ cs else some false
    else automorphismLoop db σ cs

/-- `perm_is_automorphism` (`symmetry_detect.rs:36-53`). -/
def permIsAutomorphism (db : List Clause) (σ : Perm) : Option Bool :=
  if (List.range σ.length).all (fun v => !σ.moves v) then some true
  else automorphismLoop db σ db

/-- `substitution_sr` (`pr.rs:146-155`). -/
def substitutionSr (n : Nat) (db : List Clause) (c : Clause) (σ : Perm) : Option Bool :=
  match permIsAutomorphism db σ with
  | none => none
  | some false => some false
  | some true =>
    match σ.applyClause c with
    | none => none
    | some d => upConflict n db (c.map Lit.negated ++ d.map Lit.negated)

/-- `iter().any(|l| lit_val(omega, l) == Some(true))` (`pr.rs:169`, `pr.rs:177`), panicking as it
reaches an out-of-range literal. -/
def anyTrue (ω : PAssign) : Clause → Option Bool
  | [] => some false
  | l :: ls =>
    match litVal ω l with
    | none => none
    | some (some true) => some true
    | some _ => anyTrue ω ls

/-- The `ω`-unassigned literals of a clause, negated (`pr.rs:183-188`). -/
def restNegated (ω : PAssign) (d : Clause) : List Lit :=
  (d.filter fun m => litVal ω m = some none).map Lit.negated

/-- The obligation loop (`pr.rs:175-192`). -/
def obligations (n : Nat) (db : List Clause) (α : List Lit) (ω : PAssign) : List Clause → Option Bool
  | [] => some true
  | d :: ds =>
    match anyTrue ω d with
    | none => none
    | some true => obligations n db α ω ds
    | some false =>
      match upConflict n db (α ++ restNegated ω d) with
      | none => none
      | some false => some false
      | some true => obligations n db α ω ds

/-- `assignment_pr` (`pr.rs:160-194`). -/
def assignmentPr (n : Nat) (db : List Clause) (c : Clause) (w : List Lit) : Option Bool :=
  match assume (List.replicate n none) w with
  | .panic => none
  | .clash => some false
  | .ok ω =>
    match anyTrue ω c with
    | none => none
    | some false => some false
    | some true => obligations n db (c.map Lit.negated) ω db

/-- `is_pr` (`pr.rs:74-79`). -/
def isPr (n : Nat) (db : List Clause) (c : Clause) : Witness → Option Bool
  | .assignment w => assignmentPr n db c w
  | .substitution σ => substitutionSr n db c σ

/-- `Vec::swap_remove`. -/
def swapRemove {A : Type} (xs : List A) (i : Nat) : List A :=
  match xs.getLast? with
  | none => xs
  | some z => (xs.set i z).dropLast

/-- The deletion step (`pr.rs:53-59`). -/
def deleteClause (db : List Clause) (c : Clause) : List Clause :=
  match db.findIdx? (fun d => canonClause d = canonClause c) with
  | none => db
  | some i => swapRemove db i

/-- `check_pr_refutation` (`pr.rs:37-63`). -/
def checkPr (n : Nat) (db : List Clause) : List ProofStep → Option Bool
  | [] => isRup n db []
  | .rup c :: steps =>
    match isRup n db c with
    | none => none
    | some false => some false
    | some true => checkPr n (db ++ [c]) steps
  | .pr c w :: steps =>
    match isPr n db c w with
    | none => none
    | some false => some false
    | some true => checkPr n (db ++ [c]) steps
  | .delete c :: steps => checkPr n (deleteClause db c) steps

end Verif.Proof
