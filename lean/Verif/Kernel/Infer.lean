import Verif.Kernel.TypesEqual
/-!
# Type inference of the main kernel, and proof certificates

`/repo/crates/logicaffeine_kernel/src/type_checker.rs` 51-527 (`infer_type`, `check_type`, `infer_sort`) without
`Match`, `Fix`, `MutualFix` and `Const`, and `certificate.rs` 62-89 (`recheck`).
-/
namespace Verif.Core
open Verif.Level (Universe)

/-- The part of `Context` (`context.rs`) that the modelled rules read: the types of the local variables and of
the global names. -/
structure Ctx where
  locals : String → Option Term
  globals : String → Option Term

/-- `Context::extend` (`context.rs` 240-244): the map keeps one type for a name, the last. -/
def Ctx.extend (c : Ctx) (x : String) (t : Term) : Ctx :=
  { c with locals := fun y => if y = x then some t else c.locals y }

/-- `KernelError` (`error.rs`), as far as the modelled rules raise it; `outside` is for running out of depth. -/
inductive KErr
  | unbound
  | notAType
  | notAFunction
  | mismatch
  | inferHole
  | negative
  | notInductive
  | badMotive
  | wrongCases
  | loops
  | notPositive
  | outside
  deriving DecidableEq

/-- What is not modelled: `normalize` (`reduction.rs` 52-70), the comparison after it (`is_subtype_normalized`,
`type_checker.rs` 1329-1360), and the inference rules for `Const`, `Match`, `Fix` and `MutualFix`. -/
structure Rest where
  norm : Ctx → Term → Term
  slow : Ctx → Term → Term → Bool
  other : Ctx → Term → Except KErr Term

/-- `is_subtype` (`type_checker.rs` 1309-1322). -/
def isSubtype (R : Rest) (c : Ctx) (a b : Term) : Bool := typesEqual a b || R.slow c (R.norm c a) (R.norm c b)

/-- The type of a literal (`type_checker.rs` 296-312). -/
def litType : Literal → Except KErr Term
  | .int _ => .ok (.glob "Int")
  | .bigint _ => .ok (.glob "Int")
  | .nat n => if n < 0 then .error .negative else .ok (.glob "Nat")
  | .float _ => .ok (.glob "Float")
  | .text _ => .ok (.glob "Text")
  | .duration _ => .ok (.glob "Duration")
  | .date _ => .ok (.glob "Date")
  | .moment _ => .ok (.glob "Moment")

/-- The result of looking something up. -/
def orUnbound : Option Term → Except KErr Term
  | some t => .ok t
  | none => .error .unbound

/-- `infer_sort` (`type_checker.rs` 519-527) from the inferred type. -/
def asSort : Term → Except KErr Universe
  | .sort u => .ok u
  | _ => .error .notAType

/-- A function type as it is, everything else normalised (`type_checker.rs` 152-155). -/
def exposePi (R : Rest) (c : Ctx) : Term → Term
  | .pi x a b => .pi x a b
  | t => R.norm c t

/-- The expected type of the body of a λ without a type (`type_checker.rs` 493-497). -/
def renamed (x y : String) (b : Term) : Term := if x ≠ y then substitute b y (.var x) else b

/-- The comparison at the end of `check_type` (`type_checker.rs` 504-513). -/
def compareTypes (R : Rest) (c : Ctx) (found expected : Term) : Except KErr Unit :=
  if isSubtype R c found expected then .ok () else .error .mismatch

mutual
/-- `infer_type` (`type_checker.rs` 51-385), with a bound on the depth of the recursion. -/
def inferType (R : Rest) : Nat → Ctx → Term → Except KErr Term
  | 0, _, _ => .error .outside
  | _ + 1, _, .sort u => .ok (.sort (Universe.mkSucc u))
  | _ + 1, c, .var x => orUnbound (c.locals x)
  | _ + 1, c, .glob n => orUnbound (c.globals n)
  | f + 1, c, .pi x a b => do
    let s ← asSort (← inferType R f c a)
    let s' ← asSort (← inferType R f (c.extend x a) b)
    .ok (.sort (Universe.mkIMax s s'))
  | f + 1, c, .lam x a b => do
    let _ ← asSort (← inferType R f c a)
    let t ← inferType R f (c.extend x a) b
    .ok (.pi x a t)
  | f + 1, c, .letE x t w b => do
    let _ ← asSort (← inferType R f c t)
    checkType R f c w t
    inferType R f c (substitute b x w)
  | f + 1, c, .app g a => do
    let t ← inferType R f c g
    match exposePi R c t with
    | .pi x d b => do
      checkType R f c a d
      .ok (substitute b x a)
    | _ => .error .notAFunction
  | _ + 1, _, .lit l => litType l
  | _ + 1, _, .hole => .error .inferHole
  | _ + 1, c, .const n ls => R.other c (.const n ls)
  | _ + 1, c, .mtch d m cs => R.other c (.mtch d m cs)
  | _ + 1, c, .fix x b => R.other c (.fix x b)
  | _ + 1, c, .mfix ds i => R.other c (.mfix ds i)
/-- `check_type` (`type_checker.rs` 453-514). -/
def checkType (R : Rest) : Nat → Ctx → Term → Term → Except KErr Unit
  | 0, _, _, _ => .error .outside
  | _ + 1, _, .hole, e => match e with
    | .sort _ => .ok ()
    | _ => .error .mismatch
  | f + 1, c, .lam x a b, e => match e, a with
    | .hole, _ => do
      let _ ← inferType R f c (.lam x a b)
      .ok ()
    | .pi y d r, .glob n =>
      if n = "_" then checkType R f (c.extend x d) b (renamed x y r)
      else do
        let t ← inferType R f c (.lam x (.glob n) b)
        compareTypes R c t (.pi y d r)
    | e, a => do
      let t ← inferType R f c (.lam x a b)
      compareTypes R c t e
  | f + 1, c, t, e => match e with
    | .hole => do
      let _ ← inferType R f c t
      .ok ()
    | e => do
      let i ← inferType R f c t
      compareTypes R c i e
end

/-- `certificate::recheck` (`certificate.rs` 62-89), with the standard library as a parameter and without the
version check. -/
def recheckCert (R : Rest) (f : Nat) (lib : String → Option Term) (proof claim : Term) : Except KErr Unit := do
  let t ← inferType R f { locals := fun _ => none, globals := lib } proof
  compareTypes R { locals := fun _ => none, globals := lib } t claim

end Verif.Core
