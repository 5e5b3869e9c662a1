import Verif.Lang.Interp
import Verif.Solve.UnionFind

/-!
# The compiler's e-graph

`crates/logicaffeine_compile/src/optimize/egraph/` (`enode.rs`, `mod.rs`, `extract.rs`,
`convert.rs`); the rewrite rules are in `EGraphRules.lean`.

Representatives are looked up without path compression (`C75_compression` proves that this changes
no answer).  The hash maps keyed by class roots are lists indexed by id; the hash map `memo` is an
association list, newest entry first.  `while` loops carry a bound on the number of rounds; every
theorem holds for every bound.
-/
namespace Verif.Lang.EGraph
open Verif.UnionFind

/-! ## Expressions -/

/-- The expressions the converter distinguishes (`convert.rs` 143–277).  Every occurrence carries
its address `site` (the Oracle's facts are per address).  `other` is every expression the e-graph
does not model (calls, list literals, ranges, …): `i` identifies it and `isList` says that it is a
list literal. -/
inductive XE where
  | num (site : Nat) (k : Int)
  | bool (site : Nat) (b : Bool)
  | flt (site : Nat) (f : Nat)
  | var (site : Nat) (x : Sym)
  | bin (site : Nat) (op : BinOp) (a b : XE)
  | not (site : Nat) (a : XE)
  | index (site : Nat) (c i : XE)
  | length (site : Nat) (c : XE)
  | copy (site : Nat) (a : XE)
  | slice (site : Nat) (c a b : XE)
  | contains (site : Nat) (c a : XE)
  | other (site : Nat) (i : Nat) (isList : Bool)
deriving DecidableEq, Repr

/-- The address of an occurrence. -/
def XE.site : XE → Nat
  | .num s _ | .bool s _ | .flt s _ | .var s _ | .bin s _ _ _ | .not s _ | .index s _ _
  | .length s _ | .copy s _ | .slice s _ _ _ | .contains s _ _ | .other s _ _ => s

/-! ## What expressions mean -/

/-- The world an expression is evaluated in: the abstract operations, membership, the variables,
and what the expressions the e-graph does not model evaluate to. -/
structure World where
  P : Prims
  contains : Value → Value → Except Err Value
  vars : Sym → Except Err Value
  others : Nat → Except Err Value

/-- `length_of` (`semantics/collections.rs` 216–226), on lists and text (bytes). -/
def lenV : Value → Except Err Value
  | .list xs => .ok (.int xs.length)
  | .text t => .ok (.int ((t.map (fun c => c.utf8Size)).sum : Nat))
  | _ => .error .type

/-- `slice` (`semantics/collections.rs` 192–212): a negative bound becomes a huge one. -/
def sliceV : Value → Value → Value → Except Err Value
  | .list xs, .int s, .int e =>
    if narrow s && narrow e then
      if 0 ≤ s ∧ 0 ≤ e ∧ s - 1 < e ∧ 0 < e ∧ e ≤ xs.length then
        .ok (.list ((xs.take e.toNat).drop (s.toNat - 1)))
      else .ok (.list [])
    else .error .type
  | _, _, _ => .error .type

/-- A binary operator over the results of its operands (`interpreter.rs` 4778–4801): left to right,
the first error wins, `and` and `or` short-circuit. -/
def binR (P : Prims) (op : BinOp) (a b : Except Err Value) : Except Err Value :=
  match op with
  | .and => a.bind fun v =>
      if truthy P v then b.bind fun w => .ok (.bool (truthy P w)) else .ok (.bool false)
  | .or => a.bind fun v =>
      if truthy P v then .ok (.bool true) else b.bind fun w => .ok (.bool (truthy P w))
  | _ => a.bind fun v => b.bind fun w => applyOp P op v w

/-- `evaluate_expr_sync` (`interpreter.rs` 4759–4840) on these expressions. -/
def evalX (W : World) : XE → Except Err Value
  | .num _ k => .ok (.int k)
  | .bool _ b => .ok (.bool b)
  | .flt _ f => .ok (.flt f)
  | .var _ x => W.vars x
  | .bin _ op a b => binR W.P op (evalX W a) (evalX W b)
  | .not _ a => (evalX W a).bind fun v => .ok (.bool (!truthy W.P v))
  | .index _ c i => (evalX W c).bind fun v => (evalX W i).bind fun w => W.P.index v w
  | .length _ c => (evalX W c).bind lenV
  | .copy _ a => evalX W a
  | .slice _ c a b => (evalX W c).bind fun v => (evalX W a).bind fun x => (evalX W b).bind fun y =>
      sliceV v x y
  | .contains _ c a => (evalX W c).bind fun v => (evalX W a).bind fun x => W.contains v x
  | .other _ i _ => W.others i

/-! ## Nodes -/

/-- `CompilerENode` (`enode.rs` 14–63), its binary operators under one constructor. -/
inductive ENode where
  | int (k : Int)
  | bool (b : Bool)
  | flt (f : Nat)
  | var (x : Sym) (version : Nat)
  | opaq (i : Nat)
  | bin (op : BinOp) (a b : Nat)
  | not (a : Nat)
  | len (a : Nat)
  | index (a b : Nat)
  | copy (a : Nat)
  | slice (a b c : Nat)
  | contains (a b : Nat)
deriving DecidableEq, Repr

namespace ENode

/-- `children` (`enode.rs` 67–82). -/
def children : ENode → List Nat
  | int _ | bool _ | flt _ | var _ _ | opaq _ => []
  | not a | len a | copy a => [a]
  | bin _ a b | index a b | contains a b => [a, b]
  | slice a b c => [a, b, c]

/-- `map_children` (`enode.rs` 85–116). -/
def map (f : Nat → Nat) : ENode → ENode
  | int k => int k
  | bool b => bool b
  | flt x => flt x
  | var x v => var x v
  | opaq i => opaq i
  | not a => not (f a)
  | len a => len (f a)
  | copy a => copy (f a)
  | bin op a b => bin op (f a) (f b)
  | index a b => index (f a) (f b)
  | contains a b => contains (f a) (f b)
  | slice a b c => slice (f a) (f b) (f c)

/-- `op_is_total` (`enode.rs` 122–134). -/
def opIsTotal : ENode → Bool
  | bin op _ _ => op != .div && op != .mod
  | index _ _ | slice _ _ _ | len _ | copy _ | contains _ _ | opaq _ => false
  | _ => true

end ENode

/-- `ScalarKind` (`abstract_interp.rs` 1827–1832). -/
inductive Kind where
  | int | float | bool | text
deriving DecidableEq, Repr

/-- `ClassFact` (`mod.rs` 38–50). -/
structure ClassFact where
  scalar : Option Kind := none
  range : Option (Int × Int) := none
  collection : Bool := false
  list : Bool := false
deriving DecidableEq, Repr

/-- `CompilerEGraph` (`mod.rs` 52–69). -/
structure EG where
  uf : UF
  nodes : List ENode
  memo : List (ENode × Nat)
  cls : List (List Nat)
  uses : List (List Nat)
  facts : List (Option ClassFact)
  dirty : List Nat
deriving DecidableEq

namespace EG

/-- `new` (`mod.rs` 72–82). -/
def new : EG := ⟨UF.new, [], [], [], [], [], []⟩

/-- `find` (`mod.rs` 88–90). -/
def find (g : EG) (i : Nat) : Nat := g.uf.rep i

/-- `self.nodes[id]`. -/
def node (g : EG) (i : Nat) : ENode := g.nodes.getD i (.opaq 0)

/-- `canonical_node` (`mod.rs` 93–96). -/
def canon (g : EG) (i : Nat) : ENode := (g.node i).map g.find

/-- `class_members` (`mod.rs` 99–102). -/
def members (g : EG) (i : Nat) : List Nat := g.cls.getD (g.find i) []

/-- `self.memo.get(&canonical)`. -/
def memoGet (g : EG) (n : ENode) : Option Nat := g.memo.lookup n

/-- The facts of a class, `self.facts.get(&root)`. -/
def factAt (g : EG) (r : Nat) : Option ClassFact := g.facts.getD r none

/-- The facts a new node starts with (`mod.rs` 120–150). -/
def seed : ENode → Option ClassFact
  | .int k => some { scalar := some .int, range := some (k, k) }
  | .bool _ => some { scalar := some .bool }
  | .flt _ => some { scalar := some .float }
  | .slice _ _ _ => some { collection := true, list := true }
  | _ => none

/-- The insertion of a node not yet in the graph (`mod.rs` 111–151). -/
def insert (g : EG) (canonical : ENode) : EG :=
  { uf := g.uf.makeSet.2
    nodes := g.nodes ++ [canonical]
    memo := (canonical, g.nodes.length) :: g.memo
    cls := g.cls ++ [[g.nodes.length]]
    uses := canonical.children.foldl (fun u c => u.modify c (· ++ [g.nodes.length])) (g.uses ++ [[]])
    facts := g.facts ++ [seed canonical]
    dirty := g.dirty }

/-- `add` (`mod.rs` 106–153). -/
def add (g : EG) (n : ENode) : Nat × EG :=
  match g.memoGet (n.map g.find) with
  | some id => (g.find id, g)
  | none => (g.nodes.length, g.insert (n.map g.find))

/-- The interval of a merged class (`mod.rs` 181–189). -/
def meetRange : Option (Int × Int) → Option (Int × Int) → Option (Int × Int)
  | some (al, ah), some (bl, bh) =>
    if max al bl ≤ min ah bh then some (max al bl, min ah bh) else some (al, ah)
  | r, none => r
  | none, r => r

/-- The facts of a merged class (`mod.rs` 178–197). -/
def mergeFacts : Option ClassFact → Option ClassFact → ClassFact
  | some x, some y =>
    { scalar := x.scalar.or y.scalar
      range := meetRange x.range y.range
      collection := x.collection || y.collection
      list := x.list || y.list }
  | some x, none => x
  | none, some x => x
  | none, none => {}

/-- The merge of two different roots (`mod.rs` 163–199). -/
def join (g : EG) (ra rb : Nat) : EG :=
  let uf' := (g.uf.unionRep ra rb).2
  let root := uf'.rep ra
  let loser := if root = ra then rb else ra
  { uf := uf'
    nodes := g.nodes
    memo := g.memo
    cls := (g.cls.set loser []).set root (g.cls.getD root [] ++ g.cls.getD loser [])
    uses := (g.uses.set loser []).set root (g.uses.getD root [] ++ g.uses.getD loser [])
    facts := ((g.facts.set ra none).set rb none).set root
      (some (mergeFacts (g.factAt ra) (g.factAt rb)))
    dirty := root :: g.dirty }

/-- `union` (`mod.rs` 157–201). -/
def union (g : EG) (a b : Nat) : Bool × EG :=
  if g.find a = g.find b then (false, g) else (true, g.join (g.find a) (g.find b))

/-- The repair of one parent node (`mod.rs` 211–218). -/
def repair (g : EG) (p : Nat) : EG :=
  let c := g.canon p
  let g' := match g.memoGet c with
    | some q => if g.find q ≠ g.find p then (g.union p q).2 else g
    | none => g
  { g' with memo := (c, g'.find p) :: g'.memo }

/-- One round of `rebuild` (`mod.rs` 207–223). -/
def rebuildStep (g : EG) (r : Nat) (rest : List Nat) : EG :=
  let root := g.find r
  let parents := g.uses.getD root []
  let g1 := { g with dirty := rest, uses := g.uses.set root [] }
  let g2 := parents.foldl repair g1
  { g2 with uses := g2.uses.modify (g2.find root) (· ++ parents) }

/-- `rebuild` (`mod.rs` 205–225). -/
def rebuild : Nat → EG → EG
  | 0, g => g
  | k + 1, g =>
    match g.dirty with
    | [] => g
    | r :: rest => rebuild k (g.rebuildStep r rest)

/-! ### Facts -/

/-- Change the facts of a class, `self.facts.entry(root).or_default()`. -/
def onFact (g : EG) (i : Nat) (f : ClassFact → ClassFact) : EG :=
  { g with facts := g.facts.modify (g.find i) (fun o => some (f (o.getD {}))) }

/-- `set_scalar` (`mod.rs` 229–232). -/
def setScalar (g : EG) (i : Nat) (k : Kind) : EG := g.onFact i fun f => { f with scalar := some k }

/-- `set_int_range` (`mod.rs` 234–239). -/
def setIntRange (g : EG) (i : Nat) (r : Int × Int) : EG :=
  g.onFact i fun f => { f with scalar := some .int, range := some r }

/-- `set_collection` (`mod.rs` 264–267). -/
def setCollection (g : EG) (i : Nat) : EG := g.onFact i fun f => { f with collection := true }

/-- `set_list` (`mod.rs` 270–275). -/
def setList (g : EG) (i : Nat) : EG :=
  g.onFact i fun f => { f with collection := true, list := true }

/-- `scalar_of` (`mod.rs` 241–244). -/
def scalarOf (g : EG) (i : Nat) : Option Kind := (g.factAt (g.find i)).bind (·.scalar)

/-- `int_range` (`mod.rs` 246–249). -/
def intRange (g : EG) (i : Nat) : Option (Int × Int) := (g.factAt (g.find i)).bind (·.range)

/-- `int_value` (`mod.rs` 252–257). -/
def intValue (g : EG) (i : Nat) : Option Int :=
  match g.intRange i with
  | some (lo, hi) => if lo = hi then some lo else none
  | none => none

/-- `proven_nonneg` (`mod.rs` 259–261). -/
def provenNonneg (g : EG) (i : Nat) : Bool :=
  match g.intRange i with
  | some (lo, _) => decide (0 ≤ lo)
  | none => false

/-- `proven_collection` (`mod.rs` 277–280). -/
def provenCollection (g : EG) (i : Nat) : Bool :=
  match g.factAt (g.find i) with
  | some f => f.collection
  | none => false

/-- `proven_list` (`mod.rs` 282–285). -/
def provenList (g : EG) (i : Nat) : Bool :=
  match g.factAt (g.find i) with
  | some f => f.list
  | none => false

/-- `class_has_bool` (`mod.rs` 288–292). -/
def classHasBool (g : EG) (i : Nat) (b : Bool) : Bool :=
  (g.members i).any fun m => decide (g.node m = .bool b)

/-- Whether the operator of a node is total, given the facts (`mod.rs` 317–322). -/
def opTotal (g : EG) : ENode → Bool
  | .len c | .copy c | .contains c _ => g.provenCollection c
  | n => n.opIsTotal

/-- One node of the fixpoint of `provably_total` (`mod.rs` 311–332): the roots proven so far. -/
def totalNode (g : EG) (t : List Nat) (i : Nat) : List Nat :=
  if t.contains (g.find i) then t
  else if g.opTotal (g.node i) && (g.node i).children.all (fun c => t.contains (g.find c)) then
    g.find i :: t
  else t

/-- The fixpoint (`mod.rs` 309–336): rounds until nothing changes. -/
def totalLoop (g : EG) : Nat → List Nat → List Nat
  | 0, t => t
  | k + 1, t =>
    let t' := (List.range g.nodes.length).foldl g.totalNode t
    if t'.length = t.length then t' else g.totalLoop k t'

/-- `provably_total` (`mod.rs` 307–339).  Each round but the last adds a class. -/
def provablyTotal (g : EG) (i : Nat) : Bool :=
  (g.totalLoop (g.nodes.length + 1) []).contains (g.find i)

end EG

/-! ## Extraction -/

/-- `ExtractTree` (`extract.rs` 13–17), as the expression `tree_to_expr` makes of it
(`convert.rs` 280–352): a new occurrence of every modelled construct (address 0), the original
of an opaque leaf. -/
def rebuildNode (opaques : List XE) (n : ENode) (kids : List XE) : Option XE :=
  match n, kids with
  | .int k, [] => some (.num 0 k)
  | .bool b, [] => some (.bool 0 b)
  | .flt f, [] => some (.flt 0 f)
  | .var x _, [] => some (.var 0 x)
  | .opaq i, [] => opaques[i]?
  | .bin op _ _, [a, b] => some (.bin 0 op a b)
  | .not _, [a] => some (.not 0 a)
  | .len _, [a] => some (.length 0 a)
  | .index _ _, [a, b] => some (.index 0 a b)
  | .copy _, [a] => some (.copy 0 a)
  | .slice _ _ _, [a, b, c] => some (.slice 0 a b c)
  | .contains _ _, [a, b] => some (.contains 0 a b)
  | _, _ => none

/-- `op_cost` (`extract.rs` 19–40). -/
def opCost : ENode → Nat
  | .int _ | .bool _ | .flt _ | .var _ _ => 1
  | .opaq _ => 4
  | .bin .mul _ _ => 4
  | .bin .concat _ _ => 8
  | .bin .div _ _ => 12
  | .bin .mod _ _ => 12
  | .bin _ _ _ => 1
  | .not _ => 1
  | .len _ => 2
  | .index _ _ => 3
  | .contains _ _ => 6
  | .slice _ _ _ => 8
  | .copy _ => 10

/-- The best cost and representative of each class found so far. -/
abbrev Best := List (Option (Nat × Nat))

/-- The sum of a node's cost and its children's (`extract.rs` 60–70); `none` if some child has no
representative yet.  (`saturating_add` never saturates below 2^64.) -/
def costOf (best : Best) (n : ENode) : Option Nat :=
  n.children.foldl (fun t c => match t, best.getD c none with
    | some t, some (k, _) => some (t + k)
    | _, _ => none) (some (opCost n))

/-- One node of the fixpoint (`extract.rs` 54–83). -/
def bestNode (g : EG) (adm : ENode → Bool) (best : Best) (i : Nat) : Best :=
  if adm (g.canon i) then
    match costOf best (g.canon i) with
    | none => best
    | some t =>
      match best.getD (g.find i) none with
      | some (old, _) => if old ≤ t then best else best.set (g.find i) (some (t, i))
      | none => best.set (g.find i) (some (t, i))
  else best

/-- `best_costs` (`extract.rs` 46–90). -/
def bestLoop (g : EG) (adm : ENode → Bool) : Nat → Best → Best
  | 0, best => best
  | k + 1, best =>
    let best' := (List.range g.nodes.length).foldl (bestNode g adm) best
    if best' = best then best' else bestLoop g adm k best'

/-- `build_tree` and `tree_to_expr` (`extract.rs` 92–107, `convert.rs` 280–352).  The bound is on
the depth. -/
def build (g : EG) (best : Best) (opaques : List XE) : Nat → Nat → Option XE
  | 0, _ => none
  | k + 1, i =>
    match best.getD (g.find i) none with
    | none => none
    | some (_, rep) =>
      match (g.canon rep).children.mapM (build g best opaques k) with
      | none => none
      | some kids => rebuildNode opaques (g.canon rep) kids

/-- `best_tree_filtered` (`extract.rs` 117–119) and `tree_to_expr`. -/
def extract (fuel : Nat) (g : EG) (adm : ENode → Bool) (opaques : List XE) (root : Nat) :
    Option XE :=
  build g (bestLoop g adm fuel (List.replicate g.nodes.length none)) opaques fuel root

/-! ## Conversion -/

/-- The Oracle's facts about one occurrence (`abstract_interp.rs` 1978–2130): its scalar kind, its
finite integer interval, whether it is a tracked collection, and the interval of its length. -/
structure SiteFact where
  scalar : Option Kind := none
  range : Option (Int × Int) := none
  tracked : Bool := false
  len : Option (Int × Int) := none

/-- `Converter` (`convert.rs` 29–58), without the table of symbols (the node keeps its symbol). -/
structure Conv where
  eg : EG := .new
  opaques : List XE := []
  pending : List (Nat × (Int × Int)) := []
  versions : List (Sym × Nat) := []
  collReads : List Sym := []
  suppressed : List Sym := []

namespace Conv

/-- `version_of` (`convert.rs` 75–77). -/
def versionOf (c : Conv) (x : Sym) : Nat := (c.versions.lookup x).getD 0

/-- `bump` (`convert.rs` 80–82). -/
def bump (c : Conv) (x : Sym) : Conv :=
  { c with versions := (x, c.versionOf x + 1) :: c.versions }

/-- `bump_collection_reads` (`convert.rs` 87–92). -/
def bumpReads (c : Conv) : Conv := c.collReads.foldl bump c

/-- `note_collection_read` (`convert.rs` 94–98). -/
def noteRead (c : Conv) : XE → Conv
  | .var _ x => if c.collReads.contains x then c else { c with collReads := x :: c.collReads }
  | _ => c

/-- `mentions_suppressed` (`convert.rs` 104–131). -/
def mentions (s : List Sym) : XE → Bool
  | .var _ x => s.contains x
  | .bin _ _ a b => mentions s a || mentions s b
  | .not _ a => mentions s a
  | .index _ a b => mentions s a || mentions s b
  | .length _ a => mentions s a
  | .copy _ a => mentions s a
  | .slice _ a b c => mentions s a || mentions s b || mentions s c
  | .contains _ a b => mentions s a || mentions s b
  | _ => false

/-- Add a node. -/
def add (c : Conv) (n : ENode) : Nat × Conv :=
  let r := c.eg.add n
  (r.1, { c with eg := r.2 })

/-- Change the graph. -/
def onEg (c : Conv) (f : EG → EG) : Conv := { c with eg := f c.eg }

/-- `opaque` (`convert.rs` 142–153).  `saw_opaque` is whether `opaques` is nonempty. -/
def opaq (c : Conv) (e : XE) (isList : Bool) : Nat × Conv :=
  let r := { c with opaques := c.opaques ++ [e] }.add (.opaq c.opaques.length)
  if isList then (r.1, r.2.onEg (·.setList r.1)) else r

/-- `finish_facts` (`convert.rs` 134–140). -/
def finish (c : Conv) : Conv :=
  if c.opaques.isEmpty then
    { c with eg := c.pending.foldl (fun g p => g.setIntRange p.1 p.2) c.eg, pending := [] }
  else c

/-- Facts of a stable subtree (`convert.rs` 263–274). -/
def seedFacts (F : Nat → SiteFact) (e : XE) (stable : Bool) (r : Nat × Conv) : (Nat × Bool) × Conv :=
  ((r.1, stable),
    if stable && !mentions r.2.suppressed e then
      let c1 := match (F e.site).scalar with
        | some k => r.2.onEg (·.setScalar r.1 k)
        | none => r.2
      match (F e.site).range with
        | some q => c1.onEg (·.setIntRange r.1 q)
        | none => c1
    else r.2)

/-- The collection fact of a copy (`convert.rs` 240–245). -/
def copyFact (child : Nat) (r : Nat × Conv) : Nat × Conv :=
  (r.1, if r.2.eg.provenList child then r.2.onEg (·.setList r.1)
    else if r.2.eg.provenCollection child then r.2.onEg (·.setCollection r.1) else r.2)

/-- The staged interval of a length (`convert.rs` 226–232). -/
def stageLen (F : Nat → SiteFact) (coll : XE) (r : Nat × Conv) : Nat × Conv :=
  (r.1, if mentions r.2.suppressed coll then r.2 else
    match (F coll.site).len with
    | some q => { r.2 with pending := r.2.pending ++ [(r.1, q)] }
    | none => r.2)

/-- A tracked collection (`convert.rs` 171–175). -/
def trackVar (F : Nat → SiteFact) (site : Nat) (r : Nat × Conv) : Nat × Conv :=
  (r.1, if (F site).tracked then r.2.onEg (·.setCollection r.1) else r.2)

/-- The operators without a node of their own (`convert.rs` 174–190). -/
def opaqueOp : BinOp → Bool
  | .exactDiv | .seqConcat | .approxEq | .bitAnd | .bitOr | .pow | .floorDiv => true
  | _ => false

/-- `to_node` (`convert.rs` 157–277): the class, and whether the subtree is stable. -/
def toNode (F : Nat → SiteFact) : XE → Conv → (Nat × Bool) × Conv
  | .num s k, c => seedFacts F (.num s k) true (c.add (.int k))
  | .bool s b, c => seedFacts F (.bool s b) true (c.add (.bool b))
  | .flt s f, c => seedFacts F (.flt s f) true (c.add (.flt f))
  | .var s x, c => seedFacts F (.var s x) true (trackVar F s (c.add (.var x (c.versionOf x))))
  | .bin s op a b, c =>
    if opaqueOp op then seedFacts F (.bin s op a b) false (c.opaq (.bin s op a b) false)
    else
      let ra := toNode F a c
      let rb := toNode F b ra.2
      seedFacts F (.bin s op a b) (ra.1.2 && rb.1.2) (rb.2.add (.bin op ra.1.1 rb.1.1))
  | .not s a, c =>
    let ra := toNode F a c
    seedFacts F (.not s a) ra.1.2 (ra.2.add (.not ra.1.1))
  | .index s a b, c =>
    let ra := toNode F a (c.noteRead a)
    let rb := toNode F b ra.2
    seedFacts F (.index s a b) false (rb.2.add (.index ra.1.1 rb.1.1))
  | .length s a, c =>
    let ra := toNode F a (c.noteRead a)
    seedFacts F (.length s a) false (stageLen F a (ra.2.add (.len ra.1.1)))
  | .copy s a, c =>
    let ra := toNode F a (c.noteRead a)
    seedFacts F (.copy s a) false (copyFact ra.1.1 (ra.2.add (.copy ra.1.1)))
  | .slice s a b d, c =>
    let ra := toNode F a (c.noteRead a)
    let rb := toNode F b ra.2
    let rd := toNode F d rb.2
    seedFacts F (.slice s a b d) false (rd.2.add (.slice ra.1.1 rb.1.1 rd.1.1))
  | .contains s a b, c =>
    let ra := toNode F a (c.noteRead a)
    let rb := toNode F b ra.2
    seedFacts F (.contains s a b) false (rb.2.add (.contains ra.1.1 rb.1.1))
  | .other s i l, c => seedFacts F (.other s i l) false (c.opaq (.other s i l) l)

end Conv

/-- `fusable` (`convert.rs` 410–412). -/
def fusable : XE → Bool
  | .copy _ _ | .slice _ _ _ _ => true
  | _ => false

/-- `worth_modeling` (`convert.rs` 388–407). -/
def worth : XE → Bool
  | .bin _ _ _ _ | .not _ _ => true
  | .index _ c i => fusable c || worth c || worth i
  | .length _ c => fusable c || worth c
  | .copy _ e => fusable e || worth e
  | .slice _ c a b => worth c || worth a || worth b
  | .contains _ c v => worth c || worth v
  | _ => false

/-- `expr_struct_eq` (`convert.rs` 357–385): equality up to addresses; unmodelled expressions
compare by identity. -/
def structEq : XE → XE → Bool
  | .num _ x, .num _ y => x == y
  | .bool _ x, .bool _ y => x == y
  | .flt _ x, .flt _ y => x == y
  | .var _ x, .var _ y => x == y
  | .bin _ o a b, .bin _ p c d => o == p && structEq a c && structEq b d
  | .not _ a, .not _ c => structEq a c
  | .length _ a, .length _ c => structEq a c
  | .index _ a b, .index _ c d => structEq a c && structEq b d
  | .copy _ a, .copy _ c => structEq a c
  | .slice _ a b e, .slice _ c d f => structEq a c && structEq b d && structEq e f
  | .contains _ a b, .contains _ c d => structEq a c && structEq b d
  | .other s i _, .other t j _ => s == t && i == j
  | _, _ => false

end Verif.Lang.EGraph
