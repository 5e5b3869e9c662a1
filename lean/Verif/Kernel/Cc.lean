import Verif.Kernel.Syntax
import Verif.Solve.UnionFind
/-!
# Congruence closure

`/repo/crates/logicaffeine_kernel/src/cc.rs`.  Representatives are looked up without path compression:
`C75_compression` proves that this changes no answer of the disjoint-set structure.
-/
namespace Verif.Kernel
open Verif.UnionFind

/-- `ENode` (`cc.rs` 48-61). -/
inductive ENode
  | lit (n : Int)
  | var (i : Int)
  | name (s : String)
  | app (func arg : Nat)
  deriving DecidableEq

/-- `EGraph` (`cc.rs` 67-79).  The hash map from nodes to ids always maps a node to its place in
`nodes`, so it is a search in `nodes` here; `pending` is empty between calls and is an argument of
`propagate`. -/
structure EGraph where
  nodes : List ENode
  uf : UF
  uses : List (List Nat)
  deriving DecidableEq

namespace EGraph

/-- `EGraph::new` (`cc.rs` 82-90). -/
def new : EGraph := ⟨[], UF.new, []⟩

/-- `self.use_list[i]`. -/
def usesOf (g : EGraph) (i : Nat) : List Nat := g.uses.getD i []

/-- `self.node_map.get(&node)` (`cc.rs` 94). -/
def lookup (g : EGraph) (node : ENode) : Option Nat := g.nodes.findIdx? (fun m => decide (m = node))

/-- The registration of a new node with the ids of its children (`cc.rs` 104-108). -/
def register (id : Nat) (uses : List (List Nat)) : ENode → List (List Nat)
  | .app f a => (uses.modify f (· ++ [id])).modify a (· ++ [id])
  | _ => uses

/-- `add` (`cc.rs` 93-112). -/
def add (g : EGraph) (node : ENode) : Nat × EGraph :=
  match g.lookup node with
  | some id => (id, g)
  | none => (g.nodes.length,
      ⟨g.nodes ++ [node], g.uf.makeSet.2, register g.nodes.length (g.uses ++ [[]]) node⟩)

/-- `congruent` (`cc.rs` 161-168). -/
def congruent (nodes : List ENode) (uf : UF) (a b : Nat) : Bool :=
  match nodes[a]?, nodes[b]? with
  | some (.app f1 a1), some (.app f2 a2) =>
    decide (uf.rep f1 = uf.rep f2) && decide (uf.rep a1 = uf.rep a2)
  | _, _ => false

/-- Popping until a pair of different classes comes up (`cc.rs` 122-127). -/
def drain (uf : UF) : List (Nat × Nat) → Option (Nat × Nat × List (Nat × Nat))
  | [] => none
  | (a, b) :: rest => if uf.rep a = uf.rep b then drain uf rest else some (a, b, rest)

/-- The pairs that have become congruent, in the order they are pushed (`cc.rs` 138-145). -/
def newPairs (nodes : List ENode) (uf : UF) (usesA usesB : List Nat) : List (Nat × Nat) :=
  usesA.flatMap (fun ua => (usesB.filter (fun ub => congruent nodes uf ua ub)).map (fun ub => (ua, ub)))

/-- The classes after uniting two roots (`cc.rs` 134-135). -/
def united (g : EGraph) (ra rb : Nat) : UF := (g.uf.unionRep ra rb).2

/-- The use lists afterwards (`cc.rs` 147-156). -/
def mergedUses (g : EGraph) (ra rb : Nat) : List (List Nat) :=
  if (g.united ra rb).rep ra = ra then g.uses.modify ra (· ++ g.usesOf rb)
  else g.uses.modify rb (· ++ g.usesOf ra)

/-- Uniting two roots (`cc.rs` 129-156), without the pending pairs. -/
def unite (g : EGraph) (ra rb : Nat) : EGraph := ⟨g.nodes, g.united ra rb, g.mergedUses ra rb⟩

/-- The pairs pushed while uniting two roots (`cc.rs` 130-145). -/
def pushed (g : EGraph) (ra rb : Nat) : List (Nat × Nat) :=
  newPairs g.nodes (g.united ra rb) (g.usesOf ra) (g.usesOf rb)

/-- `propagate` (`cc.rs` 121-158).  The list of pending pairs is a stack, its head is the top.  The
number bounds the unions: there are never more than nodes (`propagate_drained` proves that the bound
is not reached). -/
def propagate : Nat → EGraph → List (Nat × Nat) → EGraph
  | 0, g, _ => g
  | k + 1, g, pending =>
    match drain g.uf pending with
    | none => g
    | some (a, b, rest) =>
      propagate k (g.unite (g.uf.rep a) (g.uf.rep b))
        ((g.pushed (g.uf.rep a) (g.uf.rep b)).reverse ++ rest)

/-- `merge` (`cc.rs` 115-118). -/
def merge (g : EGraph) (a b : Nat) : EGraph := propagate g.nodes.length g [(a, b)]

/-- `equivalent` (`cc.rs` 171-173). -/
def equivalent (g : EGraph) (a b : Nat) : Bool := decide (g.uf.rep a = g.uf.rep b)

end EGraph

/-- `cc::reify` (`cc.rs` 189-213).  The state after a failure is never used. -/
def ccReify : Term → EGraph → Option (Nat × EGraph)
  | .app (.global c) x, g =>
    match extractSlit (.app (.global c) x) with
    | some n => some (g.add (.lit n))
    | none =>
      match extractSvar (.app (.global c) x) with
      | some i => some (g.add (.var i))
      | none =>
        match extractSname (.app (.global c) x) with
        | some s => some (g.add (.name s))
        | none => none
  | .app (.app (.global c) f) a, g =>
    if c = "SApp" then
      match ccReify f g with
      | none => none
      | some (i, g) =>
        match ccReify a g with
        | none => none
        | some (j, g) => some (g.add (.app i j))
    else none
  | _, _ => none

/-- `extract_equality` (`cc.rs` 375-382). -/
def ccEquality (t : Term) : Option (Term × Term) :=
  match extractBinaryApp t with
  | none => none
  | some (op, a, b) => if op = "Eq" ∨ op = "eq" then some (a, b) else none

/-- `decompose_goal` (`cc.rs` 232-245): only the hypotheses that are equations are kept. -/
def ccDecompose : Term → List (Term × Term) × Term
  | .app (.app (.global c) (.app (.app (.global c2) name) a)) b =>
    if c = "SApp" ∧ c2 = "SApp" ∧ extractSname name = some "implies" then
      ((ccEquality a).toList ++ (ccDecompose b).1, (ccDecompose b).2)
    else ([], .app (.app (.global c) (.app (.app (.global c2) name) a)) b)
  | t => ([], t)

/-- The loop over the hypotheses (`cc.rs` 287-298). -/
def assertAll : List (Term × Term) → EGraph → Option EGraph
  | [], g => some g
  | (l, r) :: hs, g =>
    match ccReify l g with
    | none => none
    | some (i, g) =>
      match ccReify r g with
      | none => none
      | some (j, g) => assertAll hs (g.merge i j)

/-- The last test (`cc.rs` 301). -/
def ccFinish (i j : Nat) : Option EGraph → Bool
  | none => false
  | some g => g.equivalent i j

/-- `check_goal` (`cc.rs` 262-302), the test shared by `try_try_cc_reduce` (`reduction.rs` 2459-2477)
and `try_dcc_solve_conclude` (`reduction.rs` 2482-2491). -/
def ccAccepts (goal : Term) : Bool :=
  match ccEquality (ccDecompose goal).2 with
  | none => false
  | some (l, r) =>
    match ccReify l EGraph.new with
    | none => false
    | some (i, g) =>
      match ccReify r g with
      | none => false
      | some (j, g) => ccFinish i j (assertAll (ccDecompose goal).1 g)

/-! ## Specification -/

/-- A structure with application: what uninterpreted terms mean. -/
structure AppStructure (α : Type) where
  lit : Int → α
  var : Int → α
  name : String → α
  app : α → α → α

/-- The value of a term. -/
inductive Value {α : Type} (A : AppStructure α) : Term → α → Prop
  | lit (n : Int) : Value A (sLit n) (A.lit n)
  | var (i : Int) : Value A (sVar i) (A.var i)
  | name (s : String) : Value A (sName s) (A.name s)
  | app {f x : Term} {u v : α} : Value A f u → Value A x v → Value A (sApp f x) (A.app u v)

/-- A meaning of goals: equations mean that the values are equal and implications mean implications.
Nothing is said about any other term. -/
structure EqMeaning {α : Type} (A : AppStructure α) (T : Term → Prop) : Prop where
  equation : ∀ s a b x y, s = "Eq" ∨ s = "eq" → Value A a x → Value A b y → (T (sBin s a b) ↔ x = y)
  implication : ∀ a b, T (sBin "implies" a b) ↔ (T a → T b)

/-- The goal `h₁ → … → hₙ → l = r` between equations. -/
def equationGoal : List (Term × Term) → Term × Term → Term
  | [], e => sBin "Eq" e.1 e.2
  | h :: hs, e => sBin "implies" (sBin "Eq" h.1 h.2) (equationGoal hs e)

/-- The terms of the embedding. -/
inductive Simple : Term → Prop
  | lit (n : Int) : Simple (sLit n)
  | var (i : Int) : Simple (sVar i)
  | name (s : String) : Simple (sName s)
  | app {f x : Term} : Simple f → Simple x → Simple (sApp f x)

/-- `s` is a part of `t`. -/
inductive Part (s : Term) : Term → Prop
  | here : Part s s
  | fn {f x : Term} : Part s f → Part s (sApp f x)
  | arg {f x : Term} : Part s x → Part s (sApp f x)

end Verif.Kernel
