import Verif.Proof.Cnf
/-!
# First-order unification and one-sided matching of terms

Models the term level of `crates/logicaffeine_proof/src/unify.rs`.  A `Substitution`
(`HashMap<String, ProofTerm>`) is modelled by its lookup function.  The recursions of the code have
no bound; the model carries a depth, and `none` stands for "not finished at this depth" (in the code:
deeper recursion, and without end a stack overflow).
-/

namespace Verif.Proof

/-- `Substitution` (`unify.rs:57`). -/
abbrev Subst := List Char → Option Term

/-- `Substitution::new()`. -/
def Subst.empty : Subst := fun _ => none

/-- `HashMap::insert`. -/
def Subst.insert (s : Subst) (v : List Char) (t : Term) : Subst := fun w => if w = v then some t else s w

/-- `ProofError` as far as term unification returns it. -/
inductive UErr where
  | symbolMismatch | arityMismatch | occursCheck | unificationFailed | exprUnificationFailed
  deriving DecidableEq, Repr

/-- `iter().map(f).collect()` where `f` may not finish. -/
def mapAll {α β : Type} (f : α → Option β) : List α → Option (List β)
  | [] => some []
  | t :: ts => match f t with
    | none => none
    | some u => match mapAll f ts with
      | none => none
      | some us => some (u :: us)

/-- `apply_subst_to_term` (`unify.rs:1163-1193`): bound and free variables are looked up alike, and
replacements are substituted again. -/
def applyTerm : Nat → Subst → Term → Option Term
  | 0, _, _ => none
  | n + 1, s, .var v => match s v with
    | some r => applyTerm n s r
    | none => some (.var v)
  | n + 1, s, .bound v => match s v with
    | some r => applyTerm n s r
    | none => some (.bound v)
  | _ + 1, _, .const c => some (.const c)
  | n + 1, s, .fn f args => (mapAll (applyTerm n s) args).map (.fn f)
  | n + 1, s, .group ts => (mapAll (applyTerm n s) ts).map .group

mutual
/-- `occurs` (`unify.rs:1122-1130`). -/
def occurs (v : List Char) : Term → Bool
  | .var w => w = v
  | .bound w => w = v
  | .const _ => false
  | .fn _ args => occursAny v args
  | .group ts => occursAny v ts

/-- `args.iter().any(|a| occurs(var, a))`. -/
def occursAny (v : List Char) : List Term → Bool
  | [] => false
  | t :: ts => occurs v t || occursAny v ts
end

/-- The pairwise loop over arguments (`unify.rs:1082-1085`, `1095-1098`); `?` leaves it at the first
error. -/
def unifyArgs (u : Term → Term → Subst → Option (Except UErr Subst)) :
    List Term → List Term → Subst → Option (Except UErr Subst)
  | a :: as, b :: bs, s => match u a b s with
    | none => none
    | some (.error e) => some (.error e)
    | some (.ok s') => unifyArgs u as bs s'
  | _, _, s => some (.ok s)

/-- The binding of a variable after the occurs check (`unify.rs:1027-1034`, `1040-1047`). -/
def bindVar (v : List Char) (t : Term) (s : Subst) : Except UErr Subst :=
  if occurs v t then .error .occursCheck else .ok (s.insert v t)

/-- The match on the two substituted terms (`unify.rs:1004-1118`), arms in the order of the code. -/
def unifyHeads (u : Term → Term → Subst → Option (Except UErr Subst)) (a b : Term) (s : Subst) :
    Option (Except UErr Subst) :=
  match a, b with
  | .const c, .const d => if c = d then some (.ok s) else some (.error .symbolMismatch)
  | .var v, .var w => if v = w then some (.ok s) else some (bindVar v (.var w) s)
  | .var v, t => some (bindVar v t s)
  | t, .var v => some (bindVar v t s)
  | .bound v, .bound w => if v = w then some (.ok s) else some (bindVar v (.bound w) s)
  | .bound v, t => some (bindVar v t s)
  | t, .bound v => some (bindVar v t s)
  | .fn f as, .fn g bs =>
    if f ≠ g then some (.error .symbolMismatch)
    else if as.length ≠ bs.length then some (.error .arityMismatch)
    else unifyArgs u as bs s
  | .group as, .group bs =>
    if as.length ≠ bs.length then some (.error .arityMismatch) else unifyArgs u as bs s
  | _, _ => some (.error .unificationFailed)

/-- `unify_terms_with_subst` (`unify.rs:995-1118`). -/
def unifyTerm : Nat → Term → Term → Subst → Option (Except UErr Subst)
  | 0, _, _, _ => none
  | n + 1, t1, t2, s => match applyTerm n s t1, applyTerm n s t2 with
    | some a, some b => unifyHeads (unifyTerm n) a b s
    | _, _ => none

/-- `unify_terms` (`unify.rs:988-992`). -/
def unifyTerms (n : Nat) (t1 t2 : Term) : Option (Except UErr Subst) := unifyTerm n t1 t2 .empty

/-- `compose_substitutions` (`unify.rs:1626-1638`). -/
def composeSubst (n : Nat) (s1 s2 : Subst) (v : List Char) : Option (Option Term) :=
  match s1 v with
  | some t => (applyTerm n s2 t).map some
  | none => some (s2 v)

mutual
/-- Derived `PartialEq` of terms. -/
def termEq : Term → Term → Bool
  | .const a, .const b => a = b
  | .var a, .var b => a = b
  | .bound a, .bound b => a = b
  | .fn f as, .fn g bs => decide (f = g) && termsEq as bs
  | .group as, .group bs => termsEq as bs
  | _, _ => false

/-- The same for lists. -/
def termsEq : List Term → List Term → Bool
  | [], [] => true
  | a :: as, b :: bs => termEq a b && termsEq as bs
  | _, _ => false
end

mutual
/-- `term_mentions_any` (`unify.rs:1935-1943`). -/
def mentionsAny (names : List (List Char)) : Term → Bool
  | .var v => names.contains v
  | .bound v => names.contains v
  | .const _ => false
  | .fn _ args => mentionsAnys names args
  | .group ts => mentionsAnys names ts

/-- The same for some element of a list. -/
def mentionsAnys (names : List (List Char)) : List Term → Bool
  | [] => false
  | t :: ts => mentionsAny names t || mentionsAnys names ts
end

/-- `match_bind` (`unify.rs:1919-1933`); `none` is `false`, otherwise the new substitution. -/
def matchBind (s : Subst) (bnd : List (List Char)) (v : List Char) (t : Term) : Option Subst :=
  match s v with
  | some e => if termEq e t then some s else none
  | none => if mentionsAny bnd t then none else some (s.insert v t)

mutual
/-- `match_term_into` (`unify.rs:1945-1985`); `none` is `false`. The substitution the code leaves
behind after `false` is dropped, as every caller does. -/
def matchTerm (bnd : List (List Char)) : Term → Term → Subst → Option Subst
  | .var v, t, s =>
    if bnd.contains v then (match t with | .var w => if w = v then some s else none | _ => none)
    else matchBind s bnd v t
  | .const a, t, s => match t with | .const b => if a = b then some s else none | _ => none
  | .bound a, t, s => match t with | .bound b => if a = b then some s else none | _ => none
  | .fn f as, t, s => match t with
    | .fn g bs => if f = g ∧ as.length = bs.length then matchTerms bnd as bs s else none
    | _ => none
  | .group as, t, s => match t with
    | .group bs => if as.length = bs.length then matchTerms bnd as bs s else none
    | _ => none

/-- The pairwise loop (`unify.rs:1965-1970`). -/
def matchTerms (bnd : List (List Char)) : List Term → List Term → Subst → Option Subst
  | a :: as, b :: bs, s => match matchTerm bnd a b s with
    | none => none
    | some s' => matchTerms bnd as bs s'
  | _, _, s => some s
end

/-- `match_term_pattern` (`unify.rs:1892-1900`). -/
def matchTermPattern (p t : Term) : Option Subst := matchTerm [] p t .empty

end Verif.Proof
