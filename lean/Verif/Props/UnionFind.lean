import Verif.Solve.UnionFindLemmas
/-!
# C75: disjoint sets

The specification is `Connected` (`Solve/UnionFind.lean`): the least equivalence containing the pairs
the client has asked to unite.
-/
namespace Verif.Props
open Verif.UnionFind

/-- After any history of calls on existing elements, `find` gives two elements the same representative
exactly when the unions of the history connect them. -/
theorem C75_classes {ops : List Op} (h : InRange 0 ops) (a b : Nat) :
    ((after UF.new ops).find a).1 = ((after UF.new ops).find b).1 ↔ Connected ops a b := by
  rw [find_fst, find_fst]; exact (track h).rep a b

/-- `union` answers `true` exactly when the two were not connected yet. -/
theorem C75_union_answer {ops : List Op} {x y : Nat} (h : InRange 0 (ops ++ [.union x y])) :
    ((after UF.new ops).union x y).1 = true ↔ ¬ Connected ops x y := by
  obtain ⟨h1, h2⟩ := inRange_append.1 h
  have t := track h1
  rw [Nat.zero_add, ← t.len] at h2
  rw [(union_sim (Sim.refl t.valid) h2.1 h2.2.1).1, unionRep_fst, decide_eq_true_eq, ne_eq, t.rep]

/-- The representative is an existing element of the class and represents itself; `make_set` numbers the
elements in order. -/
theorem C75_representative {ops : List Op} (h : InRange 0 ops) :
    (∀ x, x < made ops → ((after UF.new ops).find x).1 < made ops ∧
      Connected ops x ((after UF.new ops).find x).1 ∧
      ((after UF.new ops).find ((after UF.new ops).find x).1).1 = ((after UF.new ops).find x).1) ∧
    (after UF.new ops).makeSet.1 = made ops := by
  have t := track h
  refine ⟨fun x hx => ?_, t.len⟩
  rw [find_fst, find_fst, ← t.len, ← t.rep, rep_rep t.valid]
  exact ⟨rep_lt t.valid (by rw [t.len]; exact hx), rfl, rfl⟩

/-- The recursion of `find` always ends: in every reachable state the modelled `find`, which carries a
bound on its depth, satisfies the equation of the code, which carries none. -/
theorem C75_terminates {ops : List Op} (h : InRange 0 ops) (x : Nat) :
    (after UF.new ops).find x =
      if (after UF.new ops).par x = x then (x, after UF.new ops)
      else compress x ((after UF.new ops).find ((after UF.new ops).par x)) :=
  find_unfold (track h).valid x

/-- The answers when representatives are looked up without path compression. -/
def plainAnswers : UF → List Op → List Out
  | _, [] => []
  | s, .makeSet :: os => .id s.makeSet.1 :: plainAnswers s.makeSet.2 os
  | s, .find x :: os => .id (s.rep x) :: plainAnswers s os
  | s, .union x y :: os => .merged (s.unionRep x y).1 :: plainAnswers (s.unionRep x y).2 os

/-- Path compression is not observable: the answers to any history are those of disjoint sets without
it. -/
theorem C75_compression {ops : List Op} (h : InRange 0 ops) :
    answers UF.new ops = plainAnswers UF.new ops := by
  have key : ∀ (os : List Op) (s t : UF), Sim s t → InRange s.len os → answers s os = plainAnswers t os := by
    intro os
    induction os with
    | nil => intros; rfl
    | cons o os ih =>
      intro s t hst hr
      cases o with
      | makeSet =>
        have := makeSet_sim hst
        simp only [answers, plainAnswers, call, this.1]
        rw [ih _ _ this.2 (by rw [makeSet_len]; exact hr)]
      | find x =>
        have c := sim_of_compressed hst.left (find_compressed hst.left x)
        simp only [answers, plainAnswers, call, find_fst, hst.rep]
        rw [ih _ _ (c.trans hst) (by rw [c.len]; exact hr.2)]
      | union x y =>
        have := union_sim hst hr.1 hr.2.1
        simp only [answers, plainAnswers, call, this.1]
        rw [ih _ _ this.2 (by rw [this.2.len, unionRep_len, ← hst.len]; exact hr.2.2)]
  exact key ops _ _ (Sim.refl new_valid) h

/-- A history with two classes of two, one of them found through a compressed path. -/
def sampleHistory : List Op :=
  [.makeSet, .makeSet, .makeSet, .makeSet, .union 0 1, .union 2 3, .union 1 3, .find 3, .union 0 2]

example : InRange 0 sampleHistory := by simp [sampleHistory, InRange]

example : answers UF.new sampleHistory =
    [.id 0, .id 1, .id 2, .id 3, .merged true, .merged true, .merged true, .id 0, .merged false] := by
  decide +kernel

end Verif.Props
