import Verif.Lang.EGraphRules
import Verif.Lang.EGraphRunSpec

/-!
# The e-graph on runs of statements

`flush_run` (`convert.rs` 519–690): all expressions of a run go into one graph.
-/
namespace Verif.Lang.EGraph

/-- `SiteRec` (`convert.rs` 488–493). -/
structure SiteRec where
  root : Nat
  ctx : List (Sym × Nat)
  lo : Nat
  hi : Nat
  original : XE

/-- `convert_site` (`convert.rs` 537–552). -/
def convertSite (F : Nat → SiteFact) (e : XE) (c : Conv) : SiteRec × Conv :=
  let r := Conv.toNode F e c
  (⟨r.1.1, r.2.versions, c.opaques.length, r.2.opaques.length, e⟩, r.2)

/-- The expressions of one statement, in order. -/
def convertSites (F : Nat → SiteFact) : List XE → Conv → List SiteRec × Conv
  | [], c => ([], c)
  | e :: es, c =>
    let r := convertSite F e c
    let rs := convertSites F es r.2
    (r.1 :: rs.1, rs.2)

/-- What a binding does to the converter (`convert.rs` 557–592, `Let` and `Set`). -/
def bindSite (x : Sym) (c : Conv) : List SiteRec → Conv
  | r :: _ =>
    if r.lo = r.hi then
      let c1 := c.bump x
      let v := c1.add (.var x (c1.versionOf x))
      v.2.onEg fun g => (g.union v.1 r.root).2
    else (c.bump x).bumpReads
  | [] => c

/-- What a statement does to the converter once its expressions are in (`convert.rs` 555–634). -/
def afterSites (t : RS) (rs : List SiteRec) (c : Conv) : Conv :=
  match t with
  | .letE x _ | .setE x _ => bindSite x c rs
  | .showE _ | .assertE _ | .ret _ => c
  | .push _ x | .setIndex x _ _ => (c.bump x).bumpReads
  | .call _ _ => c.bumpReads

/-- One statement (`convert.rs` 553–636). -/
def convertStmt (F : Nat → SiteFact) (t : RS) (c : Conv) : List SiteRec × Conv :=
  let r := convertSites F (exprsOf t) c
  (r.1, afterSites t r.1 r.2)

/-- The statements of the run, in order. -/
def convertRun (F : Nat → SiteFact) : List RS → Conv → List (List SiteRec) × Conv
  | [], c => ([], c)
  | t :: ts, c =>
    let r := convertStmt F t c
    let rs := convertRun F ts r.2
    (r.1 :: rs.1, rs.2)

/-- `admissible` (`convert.rs` 648–652). -/
def SiteRec.admissible (r : SiteRec) : ENode → Bool
  | .var x v => (r.ctx.lookup x).getD 0 == v
  | .opaq j => r.lo ≤ j && j < r.hi
  | _ => true

/-- `extract` of `flush_run` (`convert.rs` 641–664). -/
def extractSite (fuel : Nat) (g : EG) (ops : List XE) (r : SiteRec) : XE :=
  if worth r.original then
    match extract fuel g r.admissible ops r.root with
    | some e => if structEq e r.original then r.original else e
    | none => r.original
  else r.original

/-- The statement with new expressions (`convert.rs` 666–688). -/
def rebuildStmt : RS → List XE → RS
  | .letE x _, [e] => .letE x e
  | .setE x _, [e] => .setE x e
  | .showE _, [e] => .showE e
  | .assertE _, [e] => .assertE e
  | .ret _, [e] => .ret e
  | .push _ x, [e] => .push e x
  | .setIndex x _ _, [i, e] => .setIndex x i e
  | .call f _, es => .call f es
  | t, _ => t

/-- `flush_run` (`convert.rs` 519–690), with the rules and the limits of `saturate` as
parameters. -/
def flushRunWith (rules : List Rule) (fuel iters cap : Nat) (F : Nat → SiteFact) (sup : List Sym)
    (run : List RS) : List RS :=
  let r := convertRun F run { suppressed := sup }
  let c := r.2.finish
  let g := saturate fuel iters cap rules c.eg
  List.zipWith (fun t rs => rebuildStmt t (rs.map (extractSite fuel g c.opaques))) run r.1

/-- `flush_run` with the rules and limits of the code. -/
def flushRun (fuel : Nat) (F : Nat → SiteFact) (sup : List Sym) (run : List RS) : List RS :=
  flushRunWith allRules fuel 8 10000 F sup run

end Verif.Lang.EGraph
