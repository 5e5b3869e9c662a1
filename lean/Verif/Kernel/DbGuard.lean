import Verif.Kernel.Guard
import Verif.Kernel.DbLemmas
/-!
# The termination guard of the second kernel

`/repo/crates/logicaffeine_kernel/src/recheck.rs` 1006-1262: the same check on nameless terms, with levels in place of
names.
-/
namespace Verif.Core

/-- What `guard` carries besides the depth (`recheck.rs` 1103-1111).  The map and the set are lists. -/
structure LCtx where
  positions : List (Nat × Nat)
  level : Nat
  type : String
  smaller : List Nat

/-- `level_of` (`recheck.rs` 1009-1011). -/
def levelOf (depth k : Nat) : Option Nat := if k < depth then some (depth - 1 - k) else none

/-- The head of an application, when it is a variable (`recheck.rs` 1129-1135). -/
def Db.headVar : Db → Option Nat
  | .app f _ => headVar f
  | .var k => some k
  | _ => none

/-- Whether an argument is headed by a smaller variable (`recheck.rs` 1129-1138). -/
def LCtx.argSmaller (H : LCtx) (depth : Nat) (t : Db) : Bool :=
  match t.headVar.bind (levelOf depth) with
  | some l => H.smaller.contains l
  | none => false

/-- The structural position of a variable that stands for a member of the block (`recheck.rs` 1116). -/
def LCtx.member (H : LCtx) (depth k : Nat) : Option Nat := (levelOf depth k).bind fun l => H.positions.lookup l

/-- Whether a discriminant is the structural parameter (`recheck.rs` 1175-1181). -/
def LCtx.isParam (H : LCtx) (depth : Nat) : Db → Bool
  | .var k => levelOf depth k == some H.level
  | _ => false

mutual
/-- `guard` (`recheck.rs` 1103-1227), whether it accepts.  `args` and `n` are as in `guarded`: the arguments the term is
applied to, and the constructor binders still to be stripped (`recheck.rs` 1246-1256). -/
def dguard (D : Decls) (H : LCtx) (depth n : Nat) (args : List Db) : Db → Bool
  | .app f a => dguard D H depth 0 (a :: args) f && dguard D H depth 0 [] a
  | .var k =>
    match H.member depth k with
    | some p =>
      match args[p]? with
      | some s => H.argSmaller depth s
      | none => false
    | none => true
  | .mtch d m cs =>
    dguard D H depth 0 [] m &&
      (if H.isParam depth d then dguardCases D H depth ((D.ctors H.type).map fun c => countPi c.2) cs
       else dguard D H depth 0 [] d && dguardAll D H depth cs)
  | .lam a b =>
    match n with
    | 0 => dguard D H depth 0 [] a && dguard D H (depth + 1) 0 [] b
    | k + 1 => dguard D { H with smaller := depth :: H.smaller } (depth + 1) k [] b
  | .pi a b => dguard D H depth 0 [] a && dguard D H (depth + 1) 0 [] b
  | .fix b => dguard D H (depth + 1) 0 [] b
  | .mfix ds _ => dguardAll D H (depth + ds.length) ds
  | .letE t v b => dguard D H depth 0 [] t && dguard D H depth 0 [] v && dguard D H (depth + 1) 0 [] b
  | .sort _ => true
  | .glob _ => true
  | .const _ _ => true
  | .lit _ => true
/-- Several terms at one depth (`recheck.rs` 1183-1186, 1203-1208). -/
def dguardAll (D : Decls) (H : LCtx) (depth : Nat) : List Db → Bool
  | [] => true
  | c :: cs => dguard D H depth 0 [] c && dguardAll D H depth cs
/-- `guard_match_cases` (`recheck.rs` 1230-1262): a case without a constructor is looked at too, with no binders. -/
def dguardCases (D : Decls) (H : LCtx) (depth : Nat) : List Nat → List Db → Bool
  | _, [] => true
  | [], c :: cs => dguard D H depth 0 [] c && dguardCases D H depth [] cs
  | n :: ns, c :: cs => dguard D H depth n [] c && dguardCases D H depth ns cs
end

/-- `extract_inductive` (`recheck.rs` 1338-1344), the name. -/
def Db.indName (D : Decls) : Db → Option String
  | .glob n => if (D.ind n).isSome then some n else none
  | .app f _ => indName D f
  | _ => none

/-- The domains of the λ-telescope (`recheck.rs` 1030-1038). -/
def Db.doms : Db → List Db
  | .lam a b => a :: doms b
  | _ => []

/-- What is under the telescope. -/
def Db.under : Db → Db
  | .lam _ b => under b
  | t => t

/-- The body past the first `k` λ. -/
def Db.peel : Nat → Db → Db
  | 0, t => t
  | k + 1, .lam _ b => peel k b
  | k + 1, t => peel k t

/-- The scrutinee as a position in the telescope (`recheck.rs` 1039-1047): levels run from `base` on, one for each λ. -/
def Db.scrutinee (base len : Nat) : Db → Option Nat
  | .mtch (.var k) _ _ => (levelOf (base + len) k).bind fun l => if base ≤ l ∧ l < base + len then some (l - base) else none
  | _ => none

/-- The chosen position (`recheck.rs` 1048-1056), from the inductive names of the domains. -/
def choose (inds : List (Option String)) (scrut : Option Nat) : Option Nat :=
  match scrut.filter fun p => (inds[p]?.join).isSome with
  | some p => some p
  | none => position (fun i => i.isSome) inds

/-- `locate_struct` (`recheck.rs` 1025-1058); `whnf`, applied to each domain, is a parameter.  The result is the
inductive name, the position and the body past it; the level is the position added to the base. -/
def locate (D : Decls) (whnf : Db → Db) (base : Nat) (body : Db) : Option (String × Nat × Db) :=
  let inds := body.doms.map fun a => (whnf a).indName D
  (choose inds (Db.scrutinee base body.doms.length body.under)).bind fun p =>
    (inds[p]?.join).map fun i => (i, p, body.peel (p + 1))

/-- `check_terminates` (`recheck.rs` 1062-1068). -/
def checkTerminates (D : Decls) (whnf : Db → Db) (fixLevel : Nat) (body : Db) : Bool :=
  match locate D whnf (fixLevel + 1) body with
  | none => false
  | some (i, p, inner) => dguard D ⟨[(fixLevel, p)], fixLevel + 1 + p, i, []⟩ (fixLevel + 1 + p + 1) 0 [] inner

end Verif.Core
