import Verif.Solve.TwoLemmas

/-!
# C25: the 2-SAT solver

`Model cs σ`: every clause has a literal that is true under `σ`.  `InRange cs n`: only variables below `n` occur.
-/

namespace Verif.Props
open Verif.Solve.Two

private theorem holds_true (a : List Bool) (l : Lit) (h : holds a l = true) : l.True (fun v => a.getD v false) := by
  unfold holds at h
  simp only [Bool.and_eq_true, beq_iff_eq] at h
  exact h.2

/-- `satisfies` accepts only models. -/
theorem C25_satisfies_sound (cs : List (Lit × Lit)) (a : List Bool) (h : satisfies cs a = true) :
    Model cs (fun v => a.getD v false) := by
  intro c hc
  have := List.all_eq_true.1 h c hc
  rw [Bool.or_eq_true] at this
  exact this.imp (holds_true a c.1) (holds_true a c.2)

/-- And it accepts every model that lists all the variables. -/
theorem C25_satisfies_complete (cs : List (Lit × Lit)) (a : List Bool) (hR : InRange cs a.length)
    (h : Model cs (fun v => a.getD v false)) : satisfies cs a = true := by
  unfold satisfies
  rw [List.all_eq_true]
  intro c hc
  rw [Bool.or_eq_true]
  have ⟨h1, h2⟩ := hR c hc
  unfold holds
  simp only [Bool.and_eq_true, beq_iff_eq, decide_eq_true_eq]
  exact (h c hc).imp (fun h => ⟨h1, h⟩) (fun h => ⟨h2, h⟩)

/-- A variable accepted as a refutation is one: no assignment satisfies the clauses.  No assumption on the instance. -/
theorem C25_refutation_sound (cs : List (Lit × Lit)) (n v : Nat) (h : isRefutation cs n v = true) :
    ∀ σ, ¬ Model cs σ := by
  intro σ hm
  unfold isRefutation at h
  split at h
  · cases h
  · next hv =>
    rw [Bool.and_eq_true, reaches_iff (edges_in cs n) (node_lt (by show v < n; omega)),
      reaches_iff (edges_in cs n) (node_lt (by show v < n; omega))] at h
    cases e : σ v with
    | true =>
      have := reach_true hm h.1 ((nodeTrue_node σ ⟨v, true⟩).2 e)
      have := (nodeTrue_node σ ⟨v, false⟩).1 this
      unfold Lit.True at this
      simp only at this
      rw [e] at this; cases this
    | false =>
      have := reach_true hm h.2 ((nodeTrue_node σ ⟨v, false⟩).2 e)
      have := (nodeTrue_node σ ⟨v, true⟩).1 this
      unfold Lit.True at this
      simp only at this
      rw [e] at this; cases this

private theorem comps (cs : List (Lit × Lit)) (n : Nat) :
    let comp := pass2 (edges cs n) (2 * n) (pass1 (edges cs n) (2 * n)).order
    (∀ x < 2 * n, ∃ k, comp x = some k) ∧
    (∀ u x j k, (u, x) ∈ edges cs n → comp u = some j → comp x = some k → j ≤ k) ∧
    (∀ x y, x < 2 * n → comp x = comp y → Reach (edges cs n) x y) := by
  obtain ⟨h1, h2, h3⟩ := pass1_spec (edges_in cs n)
  exact pass2_spec (edges_in cs n) h3 h1 h2

/-- When the solver answers with an assignment, it lists every variable, is a model, and `satisfies` accepts it. -/
theorem C25_sat_model (cs : List (Lit × Lit)) (n : Nat) (hR : InRange cs n) (a : List Bool)
    (h : solve cs n = .sat a) : a.length = n ∧ Model cs (fun v => a.getD v false) ∧ satisfies cs a = true := by
  obtain ⟨hall, htopo, _⟩ := comps cs n
  simp only [solve] at h
  generalize hcomp : pass2 (edges cs n) (2 * n) (pass1 (edges cs n) (2 * n)).order = comp at h hall htopo
  split at h
  · cases h
  · next hf =>
    cases h
    have hlen : ((List.range n).map fun v => gt (comp (node ⟨v, true⟩)) (comp (node ⟨v, false⟩))).length = n := by
      simp
    -- a literal that is not true has a smaller component than its negation
    have key : ∀ l : Lit, l.var < n →
        ¬ l.True (fun v => ((List.range n).map fun v => gt (comp (node ⟨v, true⟩)) (comp (node ⟨v, false⟩))).getD v
          false) → ∃ j k, comp (node l) = some j ∧ comp (node ⟨l.var, !l.pos⟩) = some k ∧ j < k := by
      intro l hl hnt
      obtain ⟨v, b⟩ := l
      simp only at hl
      obtain ⟨j, hj⟩ := hall (node ⟨v, true⟩) (node_lt hl)
      obtain ⟨k, hk⟩ := hall (node ⟨v, false⟩) (node_lt hl)
      have hne : j ≠ k := by
        intro e
        have := List.find?_eq_none.1 hf v (List.mem_range.2 hl)
        simp only [decide_eq_true_eq] at this
        apply this
        have h1 : comp (2 * v) = some k := hk
        have h2 : comp (2 * v + 1) = some j := hj
        rw [h1, h2, e]
      unfold Lit.True at hnt
      simp only at hnt
      have hget : ((List.range n).map fun v => gt (comp (node ⟨v, true⟩)) (comp (node ⟨v, false⟩))).getD v false =
          decide (j > k) := by
        rw [List.getD_eq_getElem?_getD, List.getElem?_map, List.getElem?_range hl]
        simp only [Option.map_some, Option.getD_some, hj, hk, gt]
      rw [hget] at hnt
      cases b with
      | true =>
        simp only [decide_eq_true_eq] at hnt
        exact ⟨j, k, hj, hk, by omega⟩
      | false =>
        simp only [decide_eq_false_iff_not] at hnt
        exact ⟨k, j, hk, hj, by omega⟩
    have hm : Model cs (fun v => ((List.range n).map fun v =>
        gt (comp (node ⟨v, true⟩)) (comp (node ⟨v, false⟩))).getD v false) := by
      intro c hc
      by_contra hcon
      rw [not_or] at hcon
      obtain ⟨r1, r2⟩ := hR c hc
      obtain ⟨j1, k1, a1, b1, l1⟩ := key c.1 r1 hcon.1
      obtain ⟨j2, k2, a2, b2, l2⟩ := key c.2 r2 hcon.2
      have e1 := htopo _ _ _ _ (mem_edges.2 ⟨c, hc, r1, r2, .inl rfl⟩) b1 a2
      have e2 := htopo _ _ _ _ (mem_edges.2 ⟨c, hc, r1, r2, .inr rfl⟩) b2 a1
      omega
    refine ⟨hlen, hm, C25_satisfies_complete cs _ (by rw [hlen]; exact hR) hm⟩

example : InRange [(⟨0, true⟩, ⟨1, true⟩), (⟨0, false⟩, ⟨1, true⟩), (⟨1, false⟩, ⟨2, true⟩)] 3 ∧
    solve [(⟨0, true⟩, ⟨1, true⟩), (⟨0, false⟩, ⟨1, true⟩), (⟨1, false⟩, ⟨2, true⟩)] 3 = .sat [false, true, true] := by
  refine ⟨?_, by decide +kernel⟩
  intro c hc
  simp only [List.mem_cons, List.not_mem_nil, or_false] at hc
  rcases hc with rfl | rfl | rfl <;> decide

/-- When the solver answers "unsatisfiable", the variable it returns is accepted by the checker, so no assignment
satisfies the clauses.  No assumption on the instance: clauses with variables out of range are ignored by both. -/
theorem C25_unsat_refuted (cs : List (Lit × Lit)) (n v : Nat) (h : solve cs n = .unsat v) :
    isRefutation cs n v = true ∧ ∀ σ, ¬ Model cs σ := by
  suffices hr : isRefutation cs n v = true from ⟨hr, C25_refutation_sound cs n v hr⟩
  obtain ⟨_, _, hsame⟩ := comps cs n
  simp only [solve] at h
  generalize hcomp : pass2 (edges cs n) (2 * n) (pass1 (edges cs n) (2 * n)).order = comp at h hsame
  split at h
  · next hf =>
    cases h
    have he := List.find?_some hf
    have hv := List.mem_range.1 (List.mem_of_find?_eq_some hf)
    simp only [decide_eq_true_eq] at he
    unfold isRefutation
    rw [if_neg (by omega), Bool.and_eq_true, reaches_iff (edges_in cs n) (node_lt hv),
      reaches_iff (edges_in cs n) (node_lt hv)]
    have n0 : node ⟨v, false⟩ = 2 * v := rfl
    have n1 : node ⟨v, true⟩ = 2 * v + 1 := rfl
    rw [n0, n1]
    exact ⟨hsame _ _ (by omega) he.symm, hsame _ _ (by omega) he⟩
  · cases h

example : solve [(⟨0, true⟩, ⟨1, true⟩), (⟨0, true⟩, ⟨1, false⟩), (⟨0, false⟩, ⟨1, true⟩), (⟨0, false⟩, ⟨1, false⟩)] 2 =
    .unsat 0 := by decide +kernel

/-- So the solver decides satisfiability. -/
theorem C25_decides (cs : List (Lit × Lit)) (n : Nat) (hR : InRange cs n) :
    (∃ a, solve cs n = .sat a) ↔ ∃ σ, Model cs σ := by
  constructor
  · rintro ⟨a, h⟩
    exact ⟨_, (C25_sat_model cs n hR a h).2.1⟩
  · rintro ⟨σ, h⟩
    cases e : solve cs n with
    | sat a => exact ⟨a, rfl⟩
    | unsat r => exact absurd h ((C25_unsat_refuted cs n r e).2 σ)

/-- The range assumption is needed: a clause that names a variable at or above the declared number is skipped, so an
unsatisfiable instance is answered with an assignment (which `satisfies` rejects). -/
theorem C25_out_of_range_fails : solve [(⟨1, true⟩, ⟨1, true⟩), (⟨1, false⟩, ⟨1, false⟩)] 1 = .sat [false] ∧
    satisfies [(⟨1, true⟩, ⟨1, true⟩), (⟨1, false⟩, ⟨1, false⟩)] [false] = false ∧
    ∀ σ, ¬ Model [(⟨1, true⟩, ⟨1, true⟩), (⟨1, false⟩, ⟨1, false⟩)] σ := by
  refine ⟨by decide +kernel, by decide, ?_⟩
  intro σ h
  have h1 := h (⟨1, true⟩, ⟨1, true⟩) (by simp)
  have h2 := h (⟨1, false⟩, ⟨1, false⟩) (by simp)
  simp only [Lit.True, or_self] at h1 h2
  rw [h1] at h2; cases h2

end Verif.Props
