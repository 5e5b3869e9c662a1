import Verif.Kernel.Level
/-!
# Kernel terms and substitution

`/repo/crates/logicaffeine_kernel/src/term.rs` 435-547 (terms) and `type_checker.rs` 890-1300 (free
variables, renaming and capture-avoiding substitution).
-/
namespace Verif.Core
open Verif.Level (Universe)

/-- `Literal` (`term.rs` 13-45).  A float is its bits; the arbitrary-precision integers are `Int`. -/
inductive Literal
  | int (n : Int)
  | float (bits : Nat)
  | text (s : String)
  | duration (n : Int)
  | date (n : Int)
  | moment (n : Int)
  | bigint (n : Int)
  | nat (n : Int)
  deriving DecidableEq, Inhabited

/-- `Term` (`term.rs` 446-536). -/
inductive Term
  | sort (u : Universe)
  | var (x : String)
  | glob (n : String)
  | const (n : String) (levels : List Universe)
  | pi (x : String) (a b : Term)
  | lam (x : String) (a b : Term)
  | app (f a : Term)
  | mtch (d m : Term) (cases : List Term)
  | fix (x : String) (b : Term)
  | mfix (defs : List (String × Term)) (index : Nat)
  | letE (x : String) (t v b : Term)
  | lit (l : Literal)
  | hole
  deriving Inhabited

/-- The names of a mutual block. -/
def names (ds : List (String × Term)) : List String := ds.map Prod.fst

mutual
/-- `occurs_free` (`type_checker.rs` 908-941). -/
def occursFree (v : String) : Term → Bool
  | .var x => x == v
  | .sort _ => false
  | .lit _ => false
  | .hole => false
  | .glob _ => false
  | .const _ _ => false
  | .app f a => occursFree v f || occursFree v a
  | .pi x a b => occursFree v a || (x != v && occursFree v b)
  | .lam x a b => occursFree v a || (x != v && occursFree v b)
  | .fix x b => x != v && occursFree v b
  | .mfix ds _ => !(names ds).contains v && occursFreeD v ds
  | .letE x t w b => occursFree v t || occursFree v w || (x != v && occursFree v b)
  | .mtch d m cs => occursFree v d || occursFree v m || occursFreeL v cs
/-- `occurs_free` in one of the cases of a match (`type_checker.rs` 937). -/
def occursFreeL (v : String) : List Term → Bool
  | [] => false
  | c :: cs => occursFree v c || occursFreeL v cs
/-- `occurs_free` in one of the bodies of a block (`type_checker.rs` 926). -/
def occursFreeD (v : String) : List (String × Term) → Bool
  | [] => false
  | (_, b) :: ds => occursFree v b || occursFreeD v ds
end

mutual
/-- `free_vars` (`type_checker.rs` 944-1002): the inner function, with the stack of bound names.  The set is
a list; only membership is ever asked. -/
def freeVarsIn (bound : List String) : Term → List String
  | .var x => if bound.contains x then [] else [x]
  | .sort _ => []
  | .lit _ => []
  | .hole => []
  | .glob _ => []
  | .const _ _ => []
  | .app f a => freeVarsIn bound f ++ freeVarsIn bound a
  | .pi x a b => freeVarsIn bound a ++ freeVarsIn (x :: bound) b
  | .lam x a b => freeVarsIn bound a ++ freeVarsIn (x :: bound) b
  | .fix x b => freeVarsIn (x :: bound) b
  | .mfix ds _ => freeVarsInD (names ds ++ bound) ds
  | .letE x t w b => freeVarsIn bound t ++ freeVarsIn bound w ++ freeVarsIn (x :: bound) b
  | .mtch d m cs => freeVarsIn bound d ++ freeVarsIn bound m ++ freeVarsInL bound cs
/-- `free_vars` of the cases of a match (`type_checker.rs` 991-993). -/
def freeVarsInL (bound : List String) : List Term → List String
  | [] => []
  | c :: cs => freeVarsIn bound c ++ freeVarsInL bound cs
/-- `free_vars` of the bodies of a block (`type_checker.rs` 973-975). -/
def freeVarsInD (bound : List String) : List (String × Term) → List String
  | [] => []
  | (_, b) :: ds => freeVarsIn bound b ++ freeVarsInD bound ds
end

/-- `free_vars` (`type_checker.rs` 944-1002). -/
def freeVars (t : Term) : List String := freeVarsIn [] t

mutual
/-- `all_var_names` (`type_checker.rs` 1005-1047). -/
def allNames : Term → List String
  | .var x => [x]
  | .sort _ => []
  | .lit _ => []
  | .hole => []
  | .glob _ => []
  | .const _ _ => []
  | .app f a => allNames f ++ allNames a
  | .pi x a b => x :: (allNames a ++ allNames b)
  | .lam x a b => x :: (allNames a ++ allNames b)
  | .fix x b => x :: allNames b
  | .mfix ds _ => allNamesD ds
  | .letE x t w b => x :: (allNames t ++ allNames w ++ allNames b)
  | .mtch d m cs => allNames d ++ allNames m ++ allNamesL cs
/-- `all_var_names` of the cases of a match (`type_checker.rs` 1042-1044). -/
def allNamesL : List Term → List String
  | [] => []
  | c :: cs => allNames c ++ allNamesL cs
/-- `all_var_names` of a block (`type_checker.rs` 1028-1031). -/
def allNamesD : List (String × Term) → List String
  | [] => []
  | (n, b) :: ds => n :: (allNames b ++ allNamesD ds)
end

/-- The `k`-th candidate of `fresh_name` (`type_checker.rs` 1051-1056). -/
def candidate (base : String) : Nat → String
  | 0 => base ++ "'"
  | k + 1 => base ++ "'" ++ toString (k + 1)

/-- The search of `fresh_name`, for at most `f` candidates. -/
def search (base : String) (avoid : List String) : Nat → Nat → String
  | 0, k => candidate base k
  | f + 1, k => if avoid.contains (candidate base k) then search base avoid f (k + 1) else candidate base k

/-- `fresh_name` (`type_checker.rs` 1050-1058).  The loop has no bound; among one more candidates than names
to avoid there is a free one (`search_fresh`).  The counter is a `u32`; a set of so many names is out of
reach. -/
def freshName (base : String) (avoid : List String) : String := search base avoid avoid.length 0

/-- `freshen` (`type_checker.rs` 1062-1072). -/
def freshen (x : String) (b : Term) (fvs : List String) (v : String) : String :=
  freshName x (v :: (allNames b ++ fvs))

/-- The bodies of a block, renamed (`type_checker.rs` 1239-1241). -/
def mapBodies (g : Term → Term) (ds : List (String × Term)) : List (String × Term) :=
  ds.map (fun d => (d.1, g d.2))

/-- The loop over the names of a block that renames those free in the replacement
(`type_checker.rs` 1226-1244), from position `i` on, for `k` names. -/
def renameBlock (rename : Term → String → String → Term) (v : String) (fvs : List String) :
    Nat → Nat → List (String × Term) → List (String × Term)
  | 0, _, ds => ds
  | k + 1, i, ds =>
    if fvs.contains ((names ds).getD i "") then
      let fresh := freshName ((names ds).getD i "") (v :: (names ds ++ (allNamesD ds ++ fvs)))
      let renamed := mapBodies (fun b => rename b ((names ds).getD i "") fresh) ds
      renameBlock rename v fvs k (i + 1) (renamed.modify i (fun d => (fresh, d.2)))
    else renameBlock rename v fvs k (i + 1) ds

mutual
/-- The height of a term: enough recursion depth for `substitute_avoiding`. -/
def height : Term → Nat
  | .var _ => 0
  | .sort _ => 0
  | .lit _ => 0
  | .hole => 0
  | .glob _ => 0
  | .const _ _ => 0
  | .app f a => Nat.max (height f) (height a) + 1
  | .pi _ a b => Nat.max (height a) (height b) + 1
  | .lam _ a b => Nat.max (height a) (height b) + 1
  | .fix _ b => height b + 1
  | .mfix ds _ => heightD ds + 1
  | .letE _ t w b => Nat.max (height t) (Nat.max (height w) (height b)) + 1
  | .mtch d m cs => Nat.max (height d) (Nat.max (height m) (heightL cs)) + 1
/-- The height of the highest case. -/
def heightL : List Term → Nat
  | [] => 0
  | c :: cs => Nat.max (height c) (heightL cs)
/-- The height of the highest body. -/
def heightD : List (String × Term) → Nat
  | [] => 0
  | (_, b) :: ds => Nat.max (height b) (heightD ds)
end

/-- What happens under a binder `x` (`type_checker.rs` 1118-1141, and the same code for `Lambda`, `Fix` and
`Let`): stop if it shadows `v`, rename it if it would capture, else go on. -/
def underBinder (sub : Term → String → Term → List String → Term) (v : String) (r : Term)
    (fvs : List String) (x : String) (b : Term) : String × Term :=
  if x = v then (x, b)
  else if fvs.contains x then
    (freshen x b fvs v,
      sub (sub b x (.var (freshen x b fvs v)) [freshen x b fvs v]) v r fvs)
  else (x, sub b v r fvs)

/-- `substitute_avoiding` (`type_checker.rs` 1088-1281), with a bound on the depth of the recursion.
`rename_var` (1076-1081) is the call with a variable for replacement. -/
def substAvoid : Nat → Term → String → Term → List String → Term
  | _, .sort u, _, _, _ => .sort u
  | _, .const n ls, _, _, _ => .const n ls
  | _, .lit l, _, _, _ => .lit l
  | _, .hole, _, _, _ => .hole
  | _, .var x, v, r, _ => if x = v then r else .var x
  | _, .glob n, _, _, _ => .glob n
  | f + 1, .pi x a b, v, r, fvs =>
    let u := underBinder (substAvoid f) v r fvs x b
    .pi u.1 (substAvoid f a v r fvs) u.2
  | f + 1, .lam x a b, v, r, fvs =>
    let u := underBinder (substAvoid f) v r fvs x b
    .lam u.1 (substAvoid f a v r fvs) u.2
  | f + 1, .app g a, v, r, fvs => .app (substAvoid f g v r fvs) (substAvoid f a v r fvs)
  | f + 1, .mtch d m cs, v, r, fvs =>
    .mtch (substAvoid f d v r fvs) (substAvoid f m v r fvs) (cs.map (fun c => substAvoid f c v r fvs))
  | f + 1, .fix x b, v, r, fvs =>
    let u := underBinder (substAvoid f) v r fvs x b
    .fix u.1 u.2
  | f + 1, .mfix ds i, v, r, fvs =>
    if (names ds).contains v then .mfix ds i
    else
      .mfix (mapBodies (fun b => substAvoid f b v r fvs)
        (renameBlock (fun b x y => substAvoid f b x (.var y) [y]) v fvs ds.length 0 ds)) i
  | f + 1, .letE x t w b, v, r, fvs =>
    let u := underBinder (substAvoid f) v r fvs x b
    .letE u.1 (substAvoid f t v r fvs) (substAvoid f w v r fvs) u.2
  | 0, t, _, _, _ => t

/-- `substitute` (`type_checker.rs` 890-905). -/
def substitute (b : Term) (v : String) (r : Term) : Term :=
  if occursFree v b then substAvoid (height b) b v r (freeVars r) else b

/-! ## Specification -/

/-- A nameless term: a bound variable is the number of binders between it and its own (`bvar 0` is the
nearest), a free variable is its name.  Two terms differ only in the names of bound variables exactly when
they have the same nameless term. -/
inductive NL
  | sort (u : Universe)
  | bvar (k : Nat)
  | fvar (x : String)
  | glob (n : String)
  | const (n : String) (levels : List Universe)
  | pi (a b : NL)
  | lam (a b : NL)
  | app (f a : NL)
  | mtch (d m : NL) (cases : List NL)
  | fix (b : NL)
  | mfix (defs : List NL) (index : Nat)
  | letE (t v b : NL)
  | lit (l : Literal)
  | hole
  deriving Inhabited

/-- The place of a name in a list, counted from the front. -/
def place (x : String) : List String → Option Nat
  | [] => none
  | y :: ys => if y = x then some 0 else (place x ys).map (· + 1)

mutual
/-- The nameless form of a term below the binders `Γ` (the nearest first). -/
def nameless (Γ : List String) : Term → NL
  | .var x =>
    match place x Γ with
    | some k => .bvar k
    | none => .fvar x
  | .sort u => .sort u
  | .lit l => .lit l
  | .hole => .hole
  | .glob n => .glob n
  | .const n ls => .const n ls
  | .app f a => .app (nameless Γ f) (nameless Γ a)
  | .pi x a b => .pi (nameless Γ a) (nameless (x :: Γ) b)
  | .lam x a b => .lam (nameless Γ a) (nameless (x :: Γ) b)
  | .fix x b => .fix (nameless (x :: Γ) b)
  | .mfix ds i => .mfix (namelessD ((ds.map Prod.fst).reverse ++ Γ) ds) i
  | .letE x t w b => .letE (nameless Γ t) (nameless Γ w) (nameless (x :: Γ) b)
  | .mtch d m cs => .mtch (nameless Γ d) (nameless Γ m) (namelessL Γ cs)
/-- The nameless forms of cases. -/
def namelessL (Γ : List String) : List Term → List NL
  | [] => []
  | c :: cs => nameless Γ c :: namelessL Γ cs
/-- The nameless forms of the bodies of a block. -/
def namelessD (Γ : List String) : List (String × Term) → List NL
  | [] => []
  | (_, b) :: ds => nameless Γ b :: namelessD Γ ds
end

mutual
/-- The replacement of a free variable in a nameless term.  Nothing can be captured, there are no names. -/
def NL.subst (x : String) (u : NL) : NL → NL
  | .fvar y => if y = x then u else .fvar y
  | .bvar k => .bvar k
  | .sort w => .sort w
  | .lit l => .lit l
  | .hole => .hole
  | .glob n => .glob n
  | .const n ls => .const n ls
  | .app f a => .app (NL.subst x u f) (NL.subst x u a)
  | .pi a b => .pi (NL.subst x u a) (NL.subst x u b)
  | .lam a b => .lam (NL.subst x u a) (NL.subst x u b)
  | .fix b => .fix (NL.subst x u b)
  | .mfix ds i => .mfix (NL.substL x u ds) i
  | .letE t w b => .letE (NL.subst x u t) (NL.subst x u w) (NL.subst x u b)
  | .mtch d m cs => .mtch (NL.subst x u d) (NL.subst x u m) (NL.substL x u cs)
/-- The replacement in a list. -/
def NL.substL (x : String) (u : NL) : List NL → List NL
  | [] => []
  | c :: cs => NL.subst x u c :: NL.substL x u cs
end

mutual
/-- In every mutual block of the term the names differ. -/
def Blocks : Term → Prop
  | .var _ => True
  | .sort _ => True
  | .lit _ => True
  | .hole => True
  | .glob _ => True
  | .const _ _ => True
  | .app f a => Blocks f ∧ Blocks a
  | .pi _ a b => Blocks a ∧ Blocks b
  | .lam _ a b => Blocks a ∧ Blocks b
  | .fix _ b => Blocks b
  | .mfix ds _ => (ds.map Prod.fst).Nodup ∧ BlocksD ds
  | .letE _ t w b => Blocks t ∧ Blocks w ∧ Blocks b
  | .mtch d m cs => Blocks d ∧ Blocks m ∧ BlocksL cs
/-- The same for cases. -/
def BlocksL : List Term → Prop
  | [] => True
  | c :: cs => Blocks c ∧ BlocksL cs
/-- The same for bodies. -/
def BlocksD : List (String × Term) → Prop
  | [] => True
  | (_, b) :: ds => Blocks b ∧ BlocksD ds
end

end Verif.Core
