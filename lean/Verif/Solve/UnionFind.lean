import Mathlib.Logic.Relation
/-!
# Disjoint sets

`/repo/crates/logicaffeine_base/src/union_find.rs`, shared by the kernel's congruence closure and the
compiler's e-graph.  An index out of range is a panic in the code; here reading is given a default and
the theorems are about indices in range.
-/
namespace Verif.UnionFind

/-- `UnionFind` (`union_find.rs` 11-16). -/
structure UF where
  parent : List Nat
  rank : List Nat
  deriving DecidableEq

/-- `UnionFind::new` (`union_find.rs` 19-24). -/
def UF.new : UF := ⟨[], []⟩

/-- `self.parent[x]`. -/
def UF.par (s : UF) (x : Nat) : Nat := s.parent.getD x x

/-- `self.rank[x]`. -/
def UF.rk (s : UF) (x : Nat) : Nat := s.rank.getD x 0

/-- `self.parent[x] = y`. -/
def UF.setPar (s : UF) (x y : Nat) : UF := { s with parent := s.parent.set x y }

/-- `len` (`union_find.rs` 35-37). -/
def UF.len (s : UF) : Nat := s.parent.length

/-- `make_set` (`union_find.rs` 27-32). -/
def UF.makeSet (s : UF) : Nat × UF := (s.len, ⟨s.parent ++ [s.len], s.rank ++ [0]⟩)

/-- After the recursive call of `find`: store the answer (`union_find.rs` 46). -/
def compress (x : Nat) (r : Nat × UF) : Nat × UF := (r.1, r.2.setPar x r.1)

/-- `find` (`union_find.rs` 44-49), with a bound on the depth of the recursion. -/
def findAux : Nat → UF → Nat → Nat × UF
  | 0, s, x => (x, s)
  | f + 1, s, x => if s.par x = x then (x, s) else compress x (findAux f s (s.par x))

/-- The bound: the ranks grow along the parent pointers, so no path is longer than the largest rank
(`find_unfold` proves that the bound is never reached). -/
def UF.bound (s : UF) : Nat := s.rank.foldr max 0 + 1

/-- `find` (`union_find.rs` 44-49). -/
def UF.find (s : UF) (x : Nat) : Nat × UF := findAux s.bound s x

/-- The linking of two different roots (`union_find.rs` 59-66). -/
def UF.link (s : UF) (rx ry : Nat) : UF :=
  if s.rk rx < s.rk ry then s.setPar rx ry
  else if s.rk ry < s.rk rx then s.setPar ry rx
  else { s.setPar ry rx with rank := s.rank.set rx (s.rk rx + 1) }

/-- What follows the two calls of `find` (`union_find.rs` 55-67). -/
def linkIf (rx ry : Nat) (s : UF) : Bool × UF :=
  if rx = ry then (false, s) else (true, s.link rx ry)

/-- After the first call of `find` (`union_find.rs` 54). -/
def unionThen (y : Nat) (r : Nat × UF) : Bool × UF :=
  linkIf r.1 (r.2.find y).1 (r.2.find y).2

/-- `union` (`union_find.rs` 52-68). -/
def UF.union (s : UF) (x y : Nat) : Bool × UF := unionThen y (s.find x)

/-- The representative, looked up without path compression.  Not in the code: the e-graph model uses it
in place of `find`, and `C75_compression` proves that nothing observable changes. -/
def repAux : Nat → UF → Nat → Nat
  | 0, _, x => x
  | f + 1, s, x => if s.par x = x then x else repAux f s (s.par x)

/-- The representative, without path compression. -/
def UF.rep (s : UF) (x : Nat) : Nat := repAux s.bound s x

/-- `union` without path compression. -/
def UF.unionRep (s : UF) (x y : Nat) : Bool × UF := linkIf (s.rep x) (s.rep y) s

/-! ## Histories -/

/-- The calls a client can make. -/
inductive Op
  | makeSet
  | find (x : Nat)
  | union (x y : Nat)
  deriving DecidableEq

/-- What a call returns. -/
inductive Out
  | id (n : Nat)
  | merged (b : Bool)
  deriving DecidableEq

/-- One call. -/
def call (s : UF) : Op → Out × UF
  | .makeSet => (.id s.makeSet.1, s.makeSet.2)
  | .find x => (.id (s.find x).1, (s.find x).2)
  | .union x y => (.merged (s.union x y).1, (s.union x y).2)

/-- The state after a history. -/
def after (s : UF) (ops : List Op) : UF := ops.foldl (fun s o => (call s o).2) s

/-- The answers to a history, in order. -/
def answers : UF → List Op → List Out
  | _, [] => []
  | s, o :: os => (call s o).1 :: answers (call s o).2 os

/-! ## Specification -/

/-- The number of elements made by a history. -/
def made (ops : List Op) : Nat := ops.countP (· = .makeSet)

/-- No call names an element that does not exist yet (the code would panic). -/
def InRange : Nat → List Op → Prop
  | _, [] => True
  | n, .makeSet :: os => InRange (n + 1) os
  | n, .find x :: os => x < n ∧ InRange n os
  | n, .union x y :: os => x < n ∧ y < n ∧ InRange n os

/-- Two elements are connected by the unions of the history. -/
def Connected (ops : List Op) : Nat → Nat → Prop :=
  Relation.EqvGen (fun x y => Op.union x y ∈ ops)

end Verif.UnionFind
