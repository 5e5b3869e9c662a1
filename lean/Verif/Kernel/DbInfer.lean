import Verif.Kernel.DbGuard
/-!
# Type inference of the second kernel, and the verdict on both

`/repo/crates/logicaffeine_kernel/src/recheck.rs` 791-1005, 1267-1431, 1525-1660.
-/
namespace Verif.Core
open Verif.Level (Universe)

/-- What the second kernel reads, and what of it is not modelled: `whnf` (`recheck.rs` 452-580), the subtyping
`is_sub` (769-784) and the comparison `def_eq` (612-719). -/
structure Second where
  decls : Decls
  globals : String → Option Term
  whnf : Db → Db
  sub : List Db → Db → Db → Bool
  eq : List Db → Db → Db → Bool

/-- `var_type` (`recheck.rs` 791-797).  The context has the nearest binder first, where the code has it last. -/
def varType (Γ : List Db) (k : Nat) : Except ReErr Db :=
  match Γ[k]? with
  | some t => .ok (shift (k + 1) 0 t)
  | none => .error .ill

/-- `infer_sort` (`recheck.rs` 1525-1534) from the head-normal type. -/
def Db.asSort : Db → Except ReErr Universe
  | .sort u => .ok u
  | _ => .error .ill

/-- The arguments of `spine` (`recheck.rs` 333-343). -/
def Db.spineArgs : Db → List Db
  | .app f a => spineArgs f ++ [a]
  | _ => []

/-- The type of a literal (`recheck.rs` 826-829, 1568-1578). -/
def dlitType : Literal → Except ReErr Db
  | .int _ => .ok (.glob "Int")
  | .bigint _ => .ok (.glob "Int")
  | .nat n => if n < 0 then .error .ill else .ok (.glob "Nat")
  | .float _ => .ok (.glob "Float")
  | .text _ => .ok (.glob "Text")
  | .duration _ => .ok (.glob "Duration")
  | .date _ => .ok (.glob "Date")
  | .moment _ => .ok (.glob "Moment")

/-- The type parameters replaced by the type arguments (`recheck.rs` 1359-1370). -/
def instParams : Db → List Db → Except ReErr Db
  | t, [] => .ok t
  | .pi _ b, a :: as => instParams (betaOpen b a) as
  | _, _ :: _ => .error .ill

/-- The telescope of the value parameters (`recheck.rs` 1373-1379). -/
def Db.piDoms : Db → List Db
  | .pi a b => a :: piDoms b
  | _ => []

/-- `case_type` (`recheck.rs` 1351-1400). -/
def dcaseType (S : Second) (motive : Db) (ctor : String) (targs : List Db) : Except ReErr Db :=
  match S.globals ctor with
  | none => .error .ill
  | some t => do
    let body ← instParams (← toDb [] t) targs
    let doms := body.piDoms
    let withTypes := targs.foldl (fun r a => Db.app r (shift doms.length 0 a)) (Db.glob ctor)
    let applied := (List.range doms.length).foldl (fun r p => Db.app r (.var (doms.length - 1 - p))) withTypes
    .ok (doms.foldr Db.pi (S.whnf (.app (shift doms.length 0 motive) applied)))

/-- The comparison in `check` (`recheck.rs` 1555-1566). -/
def subOr (S : Second) (Γ : List Db) (a b : Db) : Except ReErr Unit := if S.sub Γ a b then .ok () else .error .ill

/-- `check_case` (`recheck.rs` 1544-1553); `inf` is `infer`. -/
def dcheckCase (S : Second) (inf : List Db → Db → Except ReErr Db) : List Db → Db → Db → Except ReErr Unit
  | Γ, .lam _ b, .pi a c => dcheckCase S inf (a :: Γ) b c
  | Γ, t, ty => do subOr S Γ (← inf Γ t) ty

/-- The cases in turn (`recheck.rs` 1308-1314). -/
def dcheckCases (S : Second) (inf : List Db → Db → Except ReErr Db) (Γ : List Db) (motive : Db) (targs : List Db) :
    List (String × Term) → List Db → Except ReErr Unit
  | k :: ks, c :: cs => do
    dcheckCase S inf Γ c (← dcaseType S motive k.1 targs)
    dcheckCases S inf Γ motive targs ks cs
  | _, _ => .ok ()

/-- `effective_motive` (`recheck.rs` 878-900). -/
def deffective (S : Second) (inf : List Db → Db → Except ReErr Db) (Γ : List Db) (motive disc : Db) : Except ReErr Db := do
  match S.whnf (← inf Γ motive) with
  | .pi a c =>
    if S.eq Γ a disc then do
      let _ ← (S.whnf (← inf (disc :: Γ) c)).asSort
      .ok motive
    else .error .ill
  | .sort _ => .ok (.lam disc (shift 1 0 motive))
  | _ => .error .ill

/-- `match_return_type` (`recheck.rs` 1406-1425); a family with indices is outside the model. -/
def dreturn (S : Second) (inf : List Db → Db → Except ReErr Db) (Γ : List Db) (motive d disc : Db) : Except ReErr Db :=
  match disc.indName S.decls with
  | none => .error .unsupported
  | some i =>
    if disc.spineArgs.length > min (S.decls.numParams i) disc.spineArgs.length then .error .unsupported
    else do
      let eff ← deffective S inf Γ motive disc
      .ok (S.whnf (.app eff d))

/-- `infer_match` (`recheck.rs` 1267-1334).  A family with indices and a proposition as the inductive type (the
restriction at 1322-1331) are outside the model. -/
def dinferMatch (S : Second) (inf : List Db → Db → Except ReErr Db) (Γ : List Db) (d m : Db) (cs : List Db) :
    Except ReErr Db := do
  let disc := S.whnf (← inf Γ d)
  match disc.indName S.decls with
  | none => .error .unsupported
  | some i =>
    if disc.spineArgs.length > min (S.decls.numParams i) disc.spineArgs.length then .error .unsupported
    else do
      let eff ← deffective S inf Γ m disc
      if cs.length ≠ (S.decls.ctors i).length then .error .ill
      else do
        dcheckCases S inf Γ eff disc.spineArgs (S.decls.ctors i) cs
        let ret ← dreturn S inf Γ m d disc
        match S.whnf (← inf Γ disc) with
        | .sort .prop => .error .unsupported
        | _ => .ok ret

/-- `fix_type` (`recheck.rs` 976-992). -/
def dfixType (S : Second) (inf : List Db → Db → Except ReErr Db) : List Db → Db → Except ReErr Db
  | Γ, .lam a b => do
    let _ ← (S.whnf (← inf Γ a)).asSort
    let t ← dfixType S inf (a :: Γ) b
    .ok (.pi a t)
  | Γ, .mtch d m _ => do
    let disc := S.whnf (← inf Γ d)
    dreturn S inf Γ m d disc
  | Γ, t => inf Γ t

/-- `infer_fix` (`recheck.rs` 905-930).  The code checks the body at the level that is the length of the context. -/
def dinferFix (S : Second) (inf : List Db → Db → Except ReErr Db) (Γ : List Db) (b : Db) : Except ReErr Db := do
  let inner ← dfixType S inf (.sort .prop :: Γ) b
  let ty := shift (-1) 0 inner
  if checkTerminates S.decls S.whnf Γ.length b then do
    let _ ← inf (ty :: Γ) b
    .ok ty
  else .error .ill

/-- `infer` (`recheck.rs` 800-873), with a bound on the depth of the recursion; beyond it the model gives up with
`unsupported`.  A name with universe parameters and a mutual block are outside the model. -/
def dinfer (S : Second) : Nat → List Db → Db → Except ReErr Db
  | 0, _, _ => .error .unsupported
  | _ + 1, _, .sort u => .ok (.sort (Universe.mkSucc u))
  | _ + 1, Γ, .var k => varType Γ k
  | _ + 1, _, .glob n =>
    match S.globals n with
    | some t => toDb [] t
    | none => .error .ill
  | _ + 1, _, .lit l => dlitType l
  | n + 1, Γ, .pi a b => do
    let s ← (S.whnf (← dinfer S n Γ a)).asSort
    let s' ← (S.whnf (← dinfer S n (a :: Γ) b)).asSort
    .ok (.sort (Universe.mkIMax s s'))
  | n + 1, Γ, .lam a b => do
    let _ ← (S.whnf (← dinfer S n Γ a)).asSort
    let t ← dinfer S n (a :: Γ) b
    .ok (.pi a t)
  | n + 1, Γ, .app f a => do
    match S.whnf (← dinfer S n Γ f) with
    | .pi d b => do
      subOr S Γ (← dinfer S n Γ a) d
      .ok (betaOpen b a)
    | _ => .error .ill
  | n + 1, Γ, .letE t v b => do
    let _ ← (S.whnf (← dinfer S n Γ t)).asSort
    subOr S Γ (← dinfer S n Γ v) t
    dinfer S n Γ (betaOpen b v)
  | n + 1, Γ, .mtch d m cs => dinferMatch S (dinfer S n) Γ d m cs
  | n + 1, Γ, .fix b => dinferFix S (dinfer S n) Γ b
  | _ + 1, _, .const _ _ => .error .unsupported
  | _ + 1, _, .mfix _ _ => .error .unsupported

/-- `recheck` (`recheck.rs` 1591-1595). -/
def secondType (S : Second) (n : Nat) (t : Term) : Except ReErr Term := do
  let ty ← dinfer S n [] (← toDb [] t)
  .ok (fromDb 0 ty)

/-- `DoubleCheck` (`recheck.rs` 1598-1610), without the texts. -/
inductive Verdict
  | agreed
  | mainOnly
  | disagree
  deriving DecidableEq

/-- `double_check` (`recheck.rs` 1619-1650), from the results of the two kernels. -/
def doubleCheck (S : Second) (main : Except KErr Term) (second : Except ReErr Term) : Verdict :=
  match main, second with
  | .ok a, .ok b =>
    match toDb [] a, toDb [] b with
    | .ok m, .ok r => if S.eq [] m r then .agreed else .disagree
    | _, _ => .mainOnly
  | .ok _, .error .unsupported => .mainOnly
  | .ok _, .error .ill => .disagree
  | .error _, .ok _ => .disagree
  | .error _, .error _ => .agreed

end Verif.Core
