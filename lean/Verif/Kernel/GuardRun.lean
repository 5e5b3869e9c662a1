import Verif.Kernel.Guard
/-!
# Running terms, with a record of the recursive calls

A call-by-value reading of the terms the guard checks, written apart from the guard: it says what a recursive call is,
which call made it, and on what values.  The kernel's own reduction (`reduction.rs` 75-385) works on terms by
substitution and unfolds a fixpoint when its first argument is a constructor; here a fixpoint is entered when its
structural argument has arrived and is a value of its inductive type.
-/
namespace Verif.Core

/-- A value: a constructor with its arguments so far, a function with its environment, a fixpoint with its
environment and arguments so far, or something that does not compute (a type, a literal, an axiom).  A fixpoint
bound while a call of it runs carries the structural argument of that call. -/
inductive Val
  | con (c : String) (args : List Val)
  | clo (ρ : List (String × Val)) (x : String) (a b : Term)
  | recur (parent : Option Val) (ρ : List (String × Val)) (f : String) (body : Term) (args : List Val)
  | inert
  deriving Inhabited

abbrev ValEnv := List (String × Val)

/-- The value of a variable: the innermost binding. -/
def look (x : String) : ValEnv → Option Val
  | [] => none
  | (y, v) :: ρ => if x = y then some v else look x ρ

/-- The place of a constructor among those of its type. -/
def ctorIndex (D : Decls) (c : String) : Option Nat :=
  (D.owner c).bind fun i => position (fun e => e.1 == c) (D.ctors i)

/-- The number of arguments of a constructor. -/
def arity (D : Decls) (c : String) : Option Nat :=
  (D.owner c).bind fun i => ((D.ctors i).find? fun e => e.1 == c).map fun e => countPi e.2

/-- `count_type_params` (`reduction.rs` 392-406). -/
def countTypeParams : Term → Nat
  | .pi _ (.sort _) b => countTypeParams b + 1
  | _ => 0

/-- How many leading arguments of a constructor a match does not hand to the case (`reduction.rs` 366-368). -/
def dropped (D : Decls) (c : String) : Nat :=
  match D.owner c with
  | none => 0
  | some i => match D.declared i with
    | some n => n
    | none => (((D.ctors i).find? fun e => e.1 == c).map fun e => countTypeParams e.2).getD 0

mutual
/-- First-order data: constructors with all their arguments, which are data again, and things that do not compute. -/
def isData (D : Decls) : Val → Bool
  | .con c as => arity D c == some as.length && isDataAll D as
  | .inert => true
  | .clo _ _ _ _ => false
  | .recur _ _ _ _ _ => false
def isDataAll (D : Decls) : List Val → Bool
  | [] => true
  | v :: vs => isData D v && isDataAll D vs
end

/-- Whether a value is a complete constructor of an inductive type. -/
def ofType (D : Decls) (ty : String) : Val → Bool
  | .con c as => D.owner c == some ty && arity D c == some as.length
  | _ => false

/-- The environment and the rest of a body when its first λ are given values. -/
def bindParams : ValEnv → Term → List Val → Option (ValEnv × Term)
  | ρ, t, [] => some (ρ, t)
  | ρ, .lam x _ b, v :: vs => bindParams ((x, v) :: ρ) b vs
  | _, _, _ :: _ => none

/-- A recorded recursive call: its structural argument and that of the call that made it. -/
abbrev Calls := List (Val × Val)

/-- What entering a fixpoint records: nothing when it is called from outside. -/
def record (v : Val) : Option Val → Calls
  | some w => [(v, w)]
  | none => []

mutual
/-- The value of a term, with the recursive calls made on the way; `none` when it is stuck or the fuel is used up. -/
def run (D : Decls) : Nat → ValEnv → Term → Option (Val × Calls)
  | 0, _, _ => none
  | n + 1, ρ, t =>
    match t with
    | .var x => (look x ρ).map fun v => (v, [])
    | .glob c => if (D.owner c).isSome then some (.con c [], []) else some (.inert, [])
    | .lam x a b => some (.clo ρ x a b, [])
    | .fix f b => some (.recur none ρ f b [], [])
    | .app f a =>
      (run D n ρ f).bind fun r => (run D n ρ a).bind fun s =>
        (callVal D n r.1 s.1).map fun q => (q.1, r.2 ++ s.2 ++ q.2)
    | .letE x _ v b =>
      (run D n ρ v).bind fun r => (run D n ((x, r.1) :: ρ) b).map fun q => (q.1, r.2 ++ q.2)
    | .mtch d _ cs =>
      (run D n ρ d).bind fun r =>
        match r.1 with
        | .con c as =>
          if arity D c = some as.length then
            ((ctorIndex D c).bind fun i => cs[i]?).bind fun t => (run D n ρ t).bind fun q =>
              (as.drop (dropped D c)).foldlM (fun s a => (callVal D n s.1 a).map fun q => (q.1, s.2 ++ q.2))
                (q.1, r.2 ++ q.2)
          else none
        | _ => none
    | _ => some (.inert, [])
/-- A value applied to a value.  Constructors take data only. -/
def callVal (D : Decls) : Nat → Val → Val → Option (Val × Calls)
  | 0, _, _ => none
  | n + 1, f, v =>
    match f with
    | .clo ρ x _ b => run D n ((x, v) :: ρ) b
    | .con c as =>
      match arity D c with
      | some k => if as.length < k ∧ isData D v = true then some (.con c (as ++ [v]), []) else none
      | none => none
    | .recur p ρ f body as =>
      (structParam D body).bind fun s =>
        if as.length < s.2.2.1 then some (.recur p ρ f body (as ++ [v]), [])
        else if ofType D s.2.1 v && isData D v then
          (bindParams ((f, .recur (some v) ρ f body []) :: ρ) body (as ++ [v])).bind fun e =>
            (run D n e.1 e.2).map fun q => (q.1, record v p ++ q.2)
        else none
    | .inert => none
end

/-- The parts of a value: the arguments of its constructor. -/
def PartOf (u w : Val) : Prop := ∃ c as, w = .con c as ∧ u ∈ as

mutual
/-- Whether the kernel's guard accepts every fixpoint in a term, and there is no mutual block. -/
def allGuarded (D : Decls) : Term → Bool
  | .app f a => allGuarded D f && allGuarded D a
  | .mtch d m cs => allGuarded D d && allGuarded D m && allGuardedL D cs
  | .lam _ a b => allGuarded D a && allGuarded D b
  | .pi _ a b => allGuarded D a && allGuarded D b
  | .fix f b => checkTermination D f b && allGuarded D b
  | .mfix _ _ => false
  | .letE _ t v b => allGuarded D t && allGuarded D v && allGuarded D b
  | .var _ => true
  | .sort _ => true
  | .glob _ => true
  | .const _ _ => true
  | .lit _ => true
  | .hole => true
def allGuardedL (D : Decls) : List Term → Bool
  | [] => true
  | c :: cs => allGuarded D c && allGuardedL D cs
end

end Verif.Core
