/-!
# The 2-SAT solver

Model of `crates/logicaffeine_proof/src/twosat.rs`.

Simplifications.  The adjacency vectors `adj` and `radj` are kept as one list of edges in the order of the pushes, and
`adj[u]` is the sublist of the edges leaving `u`; the vectors hold the same neighbours in the same order.  `visited` is the
list of visited nodes.  `comp[v]` is an `Option`: `none` is the code's `usize::MAX`.  The recursive functions and the
`while` loop carry fuel (as many steps as there are nodes, which the proofs show to be enough); the code's recursion is on
the machine stack, whose overflow is not modelled.
-/

namespace Verif.Solve.Two

/-- `Lit` (twosat.rs:12-19). -/
structure Lit where
  var : Nat
  pos : Bool
deriving DecidableEq, Repr

/-- `TwoSatOutcome` (twosat.rs:32-40). -/
inductive Outcome
  | sat (a : List Bool)
  | unsat (v : Nat)
deriving DecidableEq, Repr

/-- `node` (twosat.rs:43-46). -/
def node (l : Lit) : Nat := 2 * l.var + l.pos.toNat

/-- `neg_node` (twosat.rs:47-50). -/
def negNode (n : Nat) : Nat := n ^^^ 1

/-- The edges of one clause (twosat.rs:81-86 and 132-135). -/
def clauseEdges (n : Nat) (c : Lit × Lit) : List (Nat × Nat) :=
  if c.1.var ≥ n ∨ c.2.var ≥ n then []
  else [(negNode (node c.1), node c.2), (negNode (node c.2), node c.1)]

/-- All edges, in the order in which they are pushed (twosat.rs:73-87 and 130-136). -/
def edges (cs : List (Lit × Lit)) (n : Nat) : List (Nat × Nat) := cs.flatMap (clauseEdges n)

/-- `adj[u]` (twosat.rs:77). -/
def adj (E : List (Nat × Nat)) (u : Nat) : List Nat := (E.filter fun e => e.1 == u).map (·.2)

/-- `radj[u]` (twosat.rs:78). -/
def radj (E : List (Nat × Nat)) (u : Nat) : List Nat := (E.filter fun e => e.2 == u).map (·.1)

/-- The mutable arguments of `dfs1`. -/
structure St1 where
  visited : List Nat
  order : List Nat

/-- `dfs1` (twosat.rs:52-60). -/
def dfs1 (E : List (Nat × Nat)) : Nat → Nat → St1 → St1
  | 0, _, s => s
  | f + 1, v, s =>
    let s1 := (adj E v).foldl (fun s u => if u ∈ s.visited then s else dfs1 E f u s)
      { s with visited := v :: s.visited }
    { s1 with order := s1.order ++ [v] }

/-- The finish-order pass (twosat.rs:89-95). -/
def pass1 (E : List (Nat × Nat)) (nn : Nat) : St1 :=
  (List.range nn).foldl (fun s v => if v ∈ s.visited then s else dfs1 E nn v s) ⟨[], []⟩

/-- `comp`: the component of each node. -/
abbrev Comp := Nat → Option Nat

/-- `comp[v] = c`. -/
def setC (comp : Comp) (v c : Nat) : Comp := fun w => if w = v then some c else comp w

/-- `dfs2` (twosat.rs:62-69). -/
def dfs2 (E : List (Nat × Nat)) (c : Nat) : Nat → Nat → Comp → Comp
  | 0, _, comp => comp
  | f + 1, v, comp =>
    (radj E v).foldl (fun comp u => if comp u = none then dfs2 E c f u comp else comp) (setC comp v c)

/-- One root of the component pass (twosat.rs:98-103). -/
def root (E : List (Nat × Nat)) (nn : Nat) (s : Comp × Nat) (v : Nat) : Comp × Nat :=
  if s.1 v = none then (dfs2 E s.2 nn v s.1, s.2 + 1) else s

/-- The component pass (twosat.rs:96-103). -/
def pass2 (E : List (Nat × Nat)) (nn : Nat) (order : List Nat) : Comp :=
  (order.reverse.foldl (root E nn) ((fun _ => none), 0)).1

/-- `>` on components, `none` standing for `usize::MAX` (twosat.rs:112). -/
def gt : Option Nat → Option Nat → Bool
  | some a, some b => decide (a > b)
  | none, some _ => true
  | _, none => false

/-- `solve` (twosat.rs:72-115). -/
def solve (cs : List (Lit × Lit)) (n : Nat) : Outcome :=
  let E := edges cs n
  let comp := pass2 E (2 * n) (pass1 E (2 * n)).order
  match (List.range n).find? fun v => decide (comp (2 * v) = comp (2 * v + 1)) with
  | some v => .unsat v
  | none => .sat ((List.range n).map fun v => gt (comp (node ⟨v, true⟩)) (comp (node ⟨v, false⟩)))

/-- `holds` (twosat.rs:119). -/
def holds (a : List Bool) (l : Lit) : Bool := decide (l.var < a.length) && (a.getD l.var false == l.pos)

/-- `satisfies` (twosat.rs:118-121). -/
def satisfies (cs : List (Lit × Lit)) (a : List Bool) : Bool := cs.all fun c => holds a c.1 || holds a c.2

/-- The inner loop of `reaches`: push the unseen successors (twosat.rs:145-150); the head of the list is the top of the
stack. -/
def pushNew : List Nat → List Nat × List Nat → List Nat × List Nat
  | [], s => s
  | w :: ws, s => if w ∈ s.1 then pushNew ws s else pushNew ws (w :: s.1, w :: s.2)

/-- The loop of `reaches` (twosat.rs:141-152) on `(seen, stack)`. -/
def reachLoop (E : List (Nat × Nat)) (to : Nat) : Nat → List Nat × List Nat → Bool
  | 0, _ => false
  | f + 1, s =>
    match s.2 with
    | [] => false
    | u :: stack => if u = to then true else reachLoop E to f (pushNew (adj E u) (s.1, stack))

/-- `reaches` (twosat.rs:137-153). -/
def reaches (E : List (Nat × Nat)) (nn src dst : Nat) : Bool :=
  reachLoop E dst (nn + 1) ([src], [src]) || decide (src = dst)

/-- `is_refutation` (twosat.rs:125-157). -/
def isRefutation (cs : List (Lit × Lit)) (n v : Nat) : Bool :=
  if v ≥ n then false
  else
    reaches (edges cs n) (2 * n) (node ⟨v, true⟩) (node ⟨v, false⟩) &&
      reaches (edges cs n) (2 * n) (node ⟨v, false⟩) (node ⟨v, true⟩)

/-! ## Specification -/

/-- A literal under an assignment. -/
def Lit.True (σ : Nat → Bool) (l : Lit) : Prop := σ l.var = l.pos

/-- An assignment satisfies every clause. -/
def Model (cs : List (Lit × Lit)) (σ : Nat → Bool) : Prop := ∀ c ∈ cs, c.1.True σ ∨ c.2.True σ

/-- All variables are below `n`. -/
def InRange (cs : List (Lit × Lit)) (n : Nat) : Prop := ∀ c ∈ cs, c.1.var < n ∧ c.2.var < n

end Verif.Solve.Two
