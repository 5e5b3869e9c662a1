import Mathlib.Data.List.Basic

/-! # Union-find: base/src/union_find.rs

`none` is an index panic, or running out of `fuel` in `find` — which never happens
(`find_spec`). -/
namespace Verif.Data

/-- `UnionFind`, base/src/union_find.rs:11-16. -/
structure UF where
  parent : List Nat
  rank : List Nat
deriving DecidableEq, Repr

/-- `UnionFind::new`, base/src/union_find.rs:19-24. -/
def UF.new : UF := ⟨[], []⟩

/-- `make_set`, base/src/union_find.rs:27-32. -/
def UF.makeSet (u : UF) : Nat × UF :=
  (u.parent.length, ⟨u.parent ++ [u.parent.length], u.rank ++ [0]⟩)

/-- The recursion of `find` with path compression, base/src/union_find.rs:44-49: the representative
and the parent table afterwards. -/
def findF : Nat → List Nat → Nat → Option (Nat × List Nat)
  | 0, _, _ => none
  | fuel + 1, p, x =>
    match p[x]? with
    | none => none
    | some px =>
      if px ≠ x then
        match findF fuel p px with
        | none => none
        | some (r, p') => some (r, p'.set x r)
      else some (px, p)

/-- `find`, base/src/union_find.rs:44-49.  Ranks grow strictly towards the root, so one more than
the largest rank is deep enough. -/
def UF.find (u : UF) (x : Nat) : Option (Nat × UF) :=
  match findF (u.rank.foldl max 0 + 1) u.parent x with
  | none => none
  | some (r, p) => some (r, ⟨p, u.rank⟩)

/-- Linking two roots by rank, base/src/union_find.rs:59-66. -/
def UF.link (u : UF) (rx ry : Nat) : Option UF :=
  match u.rank[rx]?, u.rank[ry]? with
  | some a, some b =>
    if a < b then some ⟨u.parent.set rx ry, u.rank⟩
    else if a > b then some ⟨u.parent.set ry rx, u.rank⟩
    else some ⟨u.parent.set ry rx, u.rank.set rx (a + 1)⟩
  | _, _ => none

/-- `union`, base/src/union_find.rs:52-68. -/
def UF.union (u : UF) (x y : Nat) : Option (Bool × UF) :=
  match u.find x with
  | none => none
  | some (rx, u1) =>
    match u1.find y with
    | none => none
    | some (ry, u2) =>
      if rx = ry then some (false, u2)
      else
        match u2.link rx ry with
        | none => none
        | some u3 => some (true, u3)

/-- Calls on a union-find. -/
inductive UFOp where
  | make
  | union (x y : Nat)
  | find (x : Nat)
deriving DecidableEq, Repr

/-- One call (answers dropped); `none` is a panic. -/
def UF.step (u : UF) : UFOp → Option UF
  | .make => some u.makeSet.2
  | .union x y => (u.union x y).map Prod.snd
  | .find x => (u.find x).map Prod.snd

/-- A sequence of calls. -/
def UF.run (u : UF) : List UFOp → Option UF
  | [] => some u
  | op :: rest =>
    match u.step op with
    | none => none
    | some u' => u'.run rest

/-- Specification: how many elements the calls create. -/
def created : List UFOp → Nat
  | [] => 0
  | .make :: rest => created rest + 1
  | _ :: rest => created rest

/-- Specification: the pairs passed to `union`. -/
def united : List UFOp → List (Nat × Nat)
  | [] => []
  | .union x y :: rest => (x, y) :: united rest
  | _ :: rest => united rest

/-- Specification: every call names elements that exist by then (`n` exist at the start). -/
def WellUsed (n : Nat) : List UFOp → Prop
  | [] => True
  | .make :: rest => WellUsed (n + 1) rest
  | .union x y :: rest => x < n ∧ y < n ∧ WellUsed n rest
  | .find x :: rest => x < n ∧ WellUsed n rest

end Verif.Data
