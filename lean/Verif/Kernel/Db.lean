import Verif.Kernel.Term
/-!
# The re-checker's nameless terms

`/repo/crates/logicaffeine_kernel/src/recheck.rs` 56-331: the de Bruijn terms of the independent checker, the
conversions from and to named terms, shifting, substitution and the unfolding of mutual blocks.
-/
namespace Verif.Core
open Verif.Level (Universe)

/-- `Db` (`recheck.rs` 61-87). -/
inductive Db
  | sort (u : Universe)
  | var (k : Nat)
  | glob (n : String)
  | const (n : String) (levels : List Universe)
  | pi (a b : Db)
  | lam (a b : Db)
  | app (f a : Db)
  | mtch (d m : Db) (cases : List Db)
  | fix (b : Db)
  | mfix (defs : List Db) (index : Nat)
  | letE (t v b : Db)
  | lit (l : Literal)
  deriving Inhabited

/-- `ReCheckError` (`recheck.rs` 32-43), without the texts. -/
inductive ReErr
  | unsupported
  | ill
  deriving DecidableEq

/-- Where a name is found in the scope, the nearest binder first (`recheck.rs` 101-105). -/
def lookup (x : String) : List String → Nat → Option Nat
  | [], _ => none
  | y :: ys, k => if y == x then some k else lookup x ys (k + 1)

mutual
/-- `to_db` (`recheck.rs` 97-175).  The scope has the nearest binder first, where the code has it last. -/
def toDb (Γ : List String) : Term → Except ReErr Db
  | .sort u => .ok (.sort u)
  | .var x => match lookup x Γ 0 with
    | some k => .ok (.var k)
    | none => .error .ill
  | .glob n => .ok (.glob n)
  | .const n ls => .ok (.const n ls)
  | .pi x a b => do
    let a' ← toDb Γ a
    let b' ← toDb (x :: Γ) b
    .ok (.pi a' b')
  | .lam x a b => do
    let a' ← toDb Γ a
    let b' ← toDb (x :: Γ) b
    .ok (.lam a' b')
  | .app f a => do
    let f' ← toDb Γ f
    let a' ← toDb Γ a
    .ok (.app f' a')
  | .mtch d m cs => do
    let d' ← toDb Γ d
    let m' ← toDb Γ m
    let cs' ← toDbL Γ cs
    .ok (.mtch d' m' cs')
  | .fix x b => do
    let b' ← toDb (x :: Γ) b
    .ok (.fix b')
  | .mfix ds i => do
    let ds' ← toDbD ((names ds).reverse ++ Γ) ds
    .ok (.mfix ds' i)
  | .letE x t w b => do
    let t' ← toDb Γ t
    let w' ← toDb Γ w
    let b' ← toDb (x :: Γ) b
    .ok (.letE t' w' b')
  | .lit l => .ok (.lit l)
  | .hole => .error .unsupported
/-- The cases (`recheck.rs` 131). -/
def toDbL (Γ : List String) : List Term → Except ReErr (List Db)
  | [] => .ok []
  | c :: cs => do
    let c' ← toDb Γ c
    let cs' ← toDbL Γ cs
    .ok (c' :: cs')
/-- The bodies of a mutual block (`recheck.rs` 147-156). -/
def toDbD (Γ : List String) : List (String × Term) → Except ReErr (List Db)
  | [] => .ok []
  | (_, c) :: cs => do
    let c' ← toDb Γ c
    let cs' ← toDbD Γ cs
    .ok (c' :: cs')
end

/-- The name of the binder at a depth (`recheck.rs` 185). -/
def vName (d : Nat) : String := "v" ++ toString d

mutual
/-- `from_db` (`recheck.rs` 181-229). -/
def fromDb (d : Nat) : Db → Term
  | .sort u => .sort u
  | .var k => .var (vName (d - 1 - k))
  | .glob n => .glob n
  | .const n ls => .const n ls
  | .pi a b => .pi (vName d) (fromDb d a) (fromDb (d + 1) b)
  | .lam a b => .lam (vName d) (fromDb d a) (fromDb (d + 1) b)
  | .app f a => .app (fromDb d f) (fromDb d a)
  | .mtch e m cs => .mtch (fromDb d e) (fromDb d m) (fromDbL d cs)
  | .fix b => .fix ("rec" ++ toString d) (fromDb (d + 1) b)
  | .mfix ds i => .mfix (fromDbD d 0 (d + ds.length) ds) i
  | .letE t w b => .letE (vName d) (fromDb d t) (fromDb d w) (fromDb (d + 1) b)
  | .lit l => .lit l
/-- The cases. -/
def fromDbL (d : Nat) : List Db → List Term
  | [] => []
  | c :: cs => fromDb d c :: fromDbL d cs
/-- The bodies of a mutual block at depth `d`, from the `j`-th on (`recheck.rs` 214-218). -/
def fromDbD (d j d' : Nat) : List Db → List (String × Term)
  | [] => []
  | c :: cs => ("rec" ++ toString d ++ "_" ++ toString j, fromDb d' c) :: fromDbD d (j + 1) d' cs
end

mutual
/-- `shift` (`recheck.rs` 237-267).  The code adds in `isize` and casts to `usize`; an index below zero, which
the cast would wrap, is zero here.  The theorems show that it never comes about. -/
def shift (n : Int) (c : Nat) : Db → Db
  | .var k => if k ≥ c then .var ((k : Int) + n).toNat else .var k
  | .pi a b => .pi (shift n c a) (shift n (c + 1) b)
  | .lam a b => .lam (shift n c a) (shift n (c + 1) b)
  | .app f a => .app (shift n c f) (shift n c a)
  | .mtch d m cs => .mtch (shift n c d) (shift n c m) (shiftL n c cs)
  | .fix b => .fix (shift n (c + 1) b)
  | .mfix ds i => .mfix (shiftL n (c + ds.length) ds) i
  | .letE t w b => .letE (shift n c t) (shift n c w) (shift n (c + 1) b)
  | .sort u => .sort u
  | .glob g => .glob g
  | .const g ls => .const g ls
  | .lit l => .lit l
/-- The same for lists. -/
def shiftL (n : Int) (c : Nat) : List Db → List Db
  | [] => []
  | d :: ds => shift n c d :: shiftL n c ds
end

mutual
/-- `subst` (`recheck.rs` 271-311). -/
def dsubst : Db → Nat → Db → Db
  | .var k, j, s => if k = j then s else .var k
  | .pi a b, j, s => .pi (dsubst a j s) (dsubst b (j + 1) (shift 1 0 s))
  | .lam a b, j, s => .lam (dsubst a j s) (dsubst b (j + 1) (shift 1 0 s))
  | .app f a, j, s => .app (dsubst f j s) (dsubst a j s)
  | .mtch d m cs, j, s => .mtch (dsubst d j s) (dsubst m j s) (dsubstL cs j s)
  | .fix b, j, s => .fix (dsubst b (j + 1) (shift 1 0 s))
  | .mfix ds i, j, s => .mfix (dsubstL ds (j + ds.length) (shift ds.length 0 s)) i
  | .letE t w b, j, s => .letE (dsubst t j s) (dsubst w j s) (dsubst b (j + 1) (shift 1 0 s))
  | .sort u, _, _ => .sort u
  | .glob g, _, _ => .glob g
  | .const g ls, _, _ => .const g ls
  | .lit l, _, _ => .lit l
/-- The same for lists. -/
def dsubstL : List Db → Nat → Db → List Db
  | [], _, _ => []
  | c :: cs, j, s => dsubst c j s :: dsubstL cs j s
end

/-- `beta_open` (`recheck.rs` 314-316). -/
def betaOpen (b a : Db) : Db := shift (-1) 0 (dsubst b 0 (shift 1 0 a))

/-- `open_mutual` (`recheck.rs` 322-330).  Indexing panics beyond the block; the model then gives the default
term. -/
def openMutual (ds : List Db) (i : Nat) : Db :=
  (List.range ds.length).foldl (fun r k => betaOpen r (.mfix ds (ds.length - 1 - k))) (ds.getD i default)

/-- The unfolding of a mutual block by the main kernel (`reduction.rs` 155-159). -/
def unfoldMutual (ds : List (String × Term)) (i : Nat) : Term :=
  ((names ds).zipIdx).foldl (fun r n => substitute r n.1 (.mfix ds n.2)) ((ds.map Prod.snd).getD i default)

/-! ## Specification -/

mutual
/-- A de Bruijn term of the re-checker as a nameless term of the specification. -/
def Db.nl : Db → NL
  | .sort u => .sort u
  | .var k => .bvar k
  | .glob n => .glob n
  | .const n ls => .const n ls
  | .pi a b => .pi (Db.nl a) (Db.nl b)
  | .lam a b => .lam (Db.nl a) (Db.nl b)
  | .app f a => .app (Db.nl f) (Db.nl a)
  | .mtch d m cs => .mtch (Db.nl d) (Db.nl m) (Db.nlL cs)
  | .fix b => .fix (Db.nl b)
  | .mfix ds i => .mfix (Db.nlL ds) i
  | .letE t v b => .letE (Db.nl t) (Db.nl v) (Db.nl b)
  | .lit l => .lit l
/-- The same for lists. -/
def Db.nlL : List Db → List NL
  | [] => []
  | c :: cs => Db.nl c :: Db.nlL cs
end

mutual
/-- All indices point to one of `n` outer binders, or inside the term. -/
def Db.Below (n : Nat) : Db → Prop
  | .sort _ => True
  | .var k => k < n
  | .glob _ => True
  | .const _ _ => True
  | .pi a b => Db.Below n a ∧ Db.Below (n + 1) b
  | .lam a b => Db.Below n a ∧ Db.Below (n + 1) b
  | .app f a => Db.Below n f ∧ Db.Below n a
  | .mtch d m cs => Db.Below n d ∧ Db.Below n m ∧ Db.BelowL n cs
  | .fix b => Db.Below (n + 1) b
  | .mfix ds _ => Db.BelowL (n + ds.length) ds
  | .letE t v b => Db.Below n t ∧ Db.Below n v ∧ Db.Below (n + 1) b
  | .lit _ => True
/-- The same for lists. -/
def Db.BelowL (n : Nat) : List Db → Prop
  | [] => True
  | c :: cs => Db.Below n c ∧ Db.BelowL n cs
end

mutual
/-- The term has no fixpoint. -/
def Db.NoFix : Db → Prop
  | .sort _ => True
  | .var _ => True
  | .glob _ => True
  | .const _ _ => True
  | .pi a b => Db.NoFix a ∧ Db.NoFix b
  | .lam a b => Db.NoFix a ∧ Db.NoFix b
  | .app f a => Db.NoFix f ∧ Db.NoFix a
  | .mtch d m cs => Db.NoFix d ∧ Db.NoFix m ∧ Db.NoFixL cs
  | .fix _ => False
  | .mfix _ _ => False
  | .letE t v b => Db.NoFix t ∧ Db.NoFix v ∧ Db.NoFix b
  | .lit _ => True
/-- The same for lists. -/
def Db.NoFixL : List Db → Prop
  | [] => True
  | c :: cs => Db.NoFix c ∧ Db.NoFixL cs
end

mutual
/-- The term has no hole. -/
def NoHole : Term → Prop
  | .hole => False
  | .var _ => True
  | .sort _ => True
  | .lit _ => True
  | .glob _ => True
  | .const _ _ => True
  | .app f a => NoHole f ∧ NoHole a
  | .pi _ a b => NoHole a ∧ NoHole b
  | .lam _ a b => NoHole a ∧ NoHole b
  | .fix _ b => NoHole b
  | .mfix ds _ => NoHoleD ds
  | .letE _ t w b => NoHole t ∧ NoHole w ∧ NoHole b
  | .mtch d m cs => NoHole d ∧ NoHole m ∧ NoHoleL cs
/-- The same for cases. -/
def NoHoleL : List Term → Prop
  | [] => True
  | c :: cs => NoHole c ∧ NoHoleL cs
/-- The same for bodies. -/
def NoHoleD : List (String × Term) → Prop
  | [] => True
  | (_, b) :: ds => NoHole b ∧ NoHoleD ds
end

end Verif.Core
