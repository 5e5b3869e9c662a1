import Verif.Sat.CdclTerm
/-!
# C90–C93: the clause-learning SAT solver

`Solver::new(n)`, then `add_clause` for every clause of a formula `F` over the variables below `n`, then
any number of calls of `solve_budgeted` and `solve_under_assumptions`, for every answer of the search
heuristics.
-/

namespace Verif.Props
open Verif.Proof Verif.Sat

/-- One public call of the solver. -/
inductive SatCall
  | budgeted (max : Nat) (chs : List Choice)
  | assuming (as : List Lit) (chs : List Choice)

/-- What the call returns. -/
def SatCall.run (S : Solver) : SatCall → Verdict × Solver
  | .budgeted max chs => S.solveBudgeted max chs
  | .assuming as chs => S.solveAssuming as chs

/-- Assumptions are literals over the solver's variables. -/
def SatCall.Fits (n : Nat) : SatCall → Prop
  | .budgeted _ _ => True
  | .assuming as _ => ∀ a ∈ as, a.var < n

/-- A call after which the solver may be used again: it returned, and it was not a `solve_budgeted`
that answered `Unsat`. (`C90_reuse_after_unsat_fails` is why.) -/
def SatCall.Reusable (v : Verdict) : SatCall → Prop
  | .budgeted _ _ => v ≠ .pending ∧ v ≠ .unsat
  | .assuming _ _ => v ≠ .pending

/-- The solvers a caller can hold: loaded with `F`, deletion of learned clauses configured, then used
for any number of calls. -/
inductive SatReached (n : Nat) (F : List Clause) : Solver → Prop
  | start (limit : Nat) (on : Bool) : SatReached n F { load n F with limit := limit, reduceOn := on }
  | call {S : Solver} (c : SatCall) : SatReached n F S → c.Fits n → c.Reusable (c.run S).1 →
      SatReached n F (c.run S).2

/-- Specification: what a `Sat(model)` answer says. -/
def GoodModel (n : Nat) (F : List Clause) (mdl : List Bool) : Prop :=
  mdl.length = n ∧ Models (fun v => mdl.getD v false) F

section
variable {n : Nat} {F : List Clause} {S : Solver}

theorem satReached_ok (hr : ∀ c ∈ F, ∀ l ∈ c, l.var < n) (h : SatReached n F S) :
    (After F (load n F).clauses.length S ∨ Latched F (load n F).clauses.length S) ∧ S.n = n := by
  induction h with
  | start limit on =>
    have h := load_ok F hr
    refine ⟨.inl ⟨?_, ?_, ?_, .inl h.lim⟩, h.n⟩
    · exact h.inv.setLimit limit on
    · show (load n F).nOrig ≤ _
      rw [h.orig]; exact Nat.zero_le _
    · intro v ci hv
      exact .inr (h.why v ci hv)
  | @call S c hS hf hu ih =>
    obtain ⟨ih, hn⟩ := ih
    cases c with
    | budgeted max chs =>
      rcases ih with ha | hl
      · have := (budgeted_ok max chs ha).1
        exact ⟨.inl (this.after hu.2 hu.1), this.n.trans hn⟩
      · exact absurd (latched_budgeted hl max chs).1 hu.2
    | assuming as chs =>
      rcases ih with ha | hl
      · have := assuming_ok as chs (by rw [hn]; exact hf) ha
        exact ⟨this.after hu, this.n.trans hn⟩
      · obtain ⟨g1, g2, g3⟩ := latched_assuming hl as chs
        exact ⟨.inr g2, g3.trans hn⟩

/-- C90: whatever the formula, the history of calls, the conflict budget and the heuristics answer,
a `Sat` from `solve_budgeted` carries a model of every clause, an `Unsat` is only said of an
unsatisfiable formula, and the call does not panic. -/
theorem C90_budgeted_partial (hr : ∀ c ∈ F, ∀ l ∈ c, l.var < n) (h : SatReached n F S) (max : Nat) (chs : List Choice) :
    (∀ mdl, (S.solveBudgeted max chs).1 = .sat mdl → GoodModel n F mdl) ∧
    ((S.solveBudgeted max chs).1 = .unsat → ¬ Satisfiable F) ∧
    (S.solveBudgeted max chs).1 ≠ .panic := by
  obtain ⟨h | h, hn⟩ := satReached_ok hr h
  · have hR := (budgeted_ok max chs h).1.right
    have hlog := (budgeted_ok max chs h).1.core.logU
    rw [hn] at hR
    revert hR hlog
    rcases S.solveBudgeted max chs with ⟨v, S'⟩
    intro hR hlog
    revert hR
    cases v with
    | sat mdl => intro hR; exact ⟨fun _ e => (by cases e; exact hR), fun e => (by cases e), fun e => by cases e⟩
    | unsat => intro hR; exact ⟨fun _ e => (by cases e), fun _ => NoWorld.unsat hR hlog, fun e => by cases e⟩
    | budget => intro hR; exact ⟨fun _ e => (by cases e), fun e => (by cases e), fun e => by cases e⟩
    | pending => intro hR; exact ⟨fun _ e => (by cases e), fun e => (by cases e), fun e => by cases e⟩
    | panic => exact fun hR => hR.elim
  · obtain ⟨g1, g2, _⟩ := latched_budgeted h max chs
    rw [g1]
    exact ⟨fun _ e => (by cases e), fun _ => g2, fun e => by cases e⟩

/-- C91: the same for `solve_under_assumptions`: a `Sat` model also satisfies every assumption, an
`Unsat` means no model of the formula satisfies all the assumptions. -/
theorem C91_assuming_partial (hr : ∀ c ∈ F, ∀ l ∈ c, l.var < n) (h : SatReached n F S) (as : List Lit)
    (has : ∀ a ∈ as, a.var < n) (chs : List Choice) :
    (∀ mdl, (S.solveAssuming as chs).1 = .sat mdl →
      GoodModel n F mdl ∧ ∀ a ∈ as, a.holds fun v => mdl.getD v false) ∧
    ((S.solveAssuming as chs).1 = .unsat → ¬ ∃ τ, Models τ F ∧ ∀ a ∈ as, a.holds τ) ∧
    (S.solveAssuming as chs).1 ≠ .panic ∧ (S.solveAssuming as chs).1 ≠ .budget := by
  obtain ⟨h | h, hn⟩ := satReached_ok hr h
  · have hR := (assuming_ok as chs (by rw [hn]; exact has) h).right
    rw [hn] at hR
    revert hR
    cases (S.solveAssuming as chs).1 with
    | sat mdl =>
      intro hR
      exact ⟨fun _ e => (by cases e; exact ⟨⟨hR.1, hR.2.1⟩, hR.2.2⟩), fun e => (by cases e), fun e => (by cases e), fun e => by cases e⟩
    | unsat => intro hR; exact ⟨fun _ e => (by cases e), fun _ => hR, fun e => (by cases e), fun e => by cases e⟩
    | budget => exact fun hR => hR.elim
    | pending => intro hR; exact ⟨fun _ e => (by cases e), fun e => (by cases e), fun e => (by cases e), fun e => by cases e⟩
    | panic => exact fun hR => hR.elim
  · have hu := h.core.emp h.empty
    have g1 := (latched_assuming h as chs).1
    rw [g1]
    exact ⟨fun _ e => (by cases e), fun _ => unsat_under hu, fun e => (by cases e), fun e => by cases e⟩

/-- C92: every clause in the learned-clause log, after any history of calls and whatever assumptions
they made, holds in every model of the formula. -/
theorem C92_learned (hr : ∀ c ∈ F, ∀ l ∈ c, l.var < n) (h : SatReached n F S) :
    ∀ c ∈ S.log, ∀ τ, Models τ F → Clause.holds τ c := by
  obtain ⟨h | h, _⟩ := satReached_ok hr h
  · exact h.inv.core.log
  · exact h.core.log

/-- C92, for the log right after a call, also one that answered `Unsat` or is not finished. -/
theorem C92_learned_after (hr : ∀ c ∈ F, ∀ l ∈ c, l.var < n) (h : SatReached n F S) (c : SatCall) (hf : c.Fits n) :
    ∀ d ∈ (c.run S).2.log, ∀ τ, Models τ F → Clause.holds τ d := by
  obtain ⟨h | h, hn⟩ := satReached_ok hr h
  · cases c with
    | budgeted max chs => exact (budgeted_ok max chs h).1.core.log
    | assuming as chs => exact (assuming_ok as chs (by rw [hn]; exact hf) h).core.log
  · cases c with
    | budgeted max chs => exact (latched_budgeted h max chs).2.2.1.core.log
    | assuming as chs => exact (latched_assuming h as chs).2.1.core.log

/-- C93: `solve_under_assumptions` ends: at most `n * (n + 1) ^ n + 1` turns of its loop, whatever
the history, the assumptions and the heuristics. -/
theorem C93_assuming_ends (hr : ∀ c ∈ F, ∀ l ∈ c, l.var < n) (h : SatReached n F S) (as : List Lit)
    (has : ∀ a ∈ as, a.var < n) (chs : List Choice) (hk : n * (n + 1) ^ n < chs.length) :
    (S.solveAssuming as chs).1 ≠ .pending := by
  obtain ⟨h | h, hn⟩ := satReached_ok hr h
  · exact assuming_ends as chs (by rw [hn]; exact has) h.inv (by rw [hn]; exact hk)
  · rw [(latched_assuming h as chs).1]; simp

/-- C93: `solve_budgeted` with a conflict budget ends: at most `max * (n + 1) + 1` turns. -/
theorem C93_budgeted_ends (hr : ∀ c ∈ F, ∀ l ∈ c, l.var < n) (h : SatReached n F S) (max : Nat) (hmax : max ≠ 0)
    (chs : List Choice) (hk : max * (n + 1) < chs.length) : (S.solveBudgeted max chs).1 ≠ .pending := by
  obtain ⟨h | h, hn⟩ := satReached_ok hr h
  · exact budgeted_ends hmax chs h (by rw [hn]; exact hk)
  · rw [(latched_budgeted h max chs).1]; simp

end

/-! ### Cases -/

/-- one set of heuristic answers: the first variable of the heap, polarity false -/
private def ch0 : Choice := ⟨fun _ => 0, fun _ => false, fun _ => true, false⟩
private def chs0 (k : Nat) : List Choice := List.replicate k ch0
private def lit (i : Int) : Lit := ⟨i.natAbs - 1, decide (0 < i)⟩
/-- all eight clauses over three variables -/
private def F8 : List Clause :=
  [[1, 2, 3], [1, 2, -3], [1, -2, 3], [1, -2, -3], [-1, 2, 3], [-1, 2, -3], [-1, -2, 3], [-1, -2, -3]].map (·.map lit)

/-- C90, C92: a run that meets the hypotheses and ends in `Unsat` after learning three clauses, on a solver
used once before with a budget of one conflict. -/
example : (∀ c ∈ F8, ∀ l ∈ c, l.var < 3) ∧
    ∃ S, SatReached 3 F8 S ∧ S.log ≠ [] ∧ (S.solveBudgeted 0 (chs0 20)).1 = .unsat :=
  ⟨by decide, _, .call (.budgeted 1 (chs0 20)) (.start 2000 true) trivial
    ⟨by decide +kernel, by decide +kernel⟩, by decide +kernel, by decide +kernel⟩

/-- C91: one query refuted and the next one satisfied on the same solver, clauses learned in between. -/
example : (∀ c ∈ F8.tail, ∀ l ∈ c, l.var < 3) ∧
    ∃ S, SatReached 3 F8.tail S ∧ S.log ≠ [] ∧
      (S.solveAssuming [lit 1] (chs0 20)).1 = .unsat ∧
      (S.solveAssuming [lit (-2)] (chs0 20)).1 = .sat [false, false, false] :=
  ⟨by decide, _, .call (.assuming [lit 1] (chs0 20)) (.start 2000 true)
    (show ∀ a ∈ [lit 1], a.var < 3 by decide) (show _ ≠ _ by decide +kernel), by decide +kernel, by decide +kernel, by decide +kernel⟩

/-- C93: the bounds are met by lists of choices that exist. -/
example : 3 * (3 + 1) ^ 3 < (chs0 200).length ∧ 5 * (3 + 1) < (chs0 200).length := by decide +kernel

/-! ### Where the code does not do it -/

/-- C90 fails for a solver that has answered `Unsat`: the unsatisfiable formula `a, b, c, ¬a ∨ ¬b ∨ ¬c` is
refuted twice and then reported `Sat`. `solve_budgeted` does not record a conflict at level 0, and
the next call carries on propagating after the literal that caused it. No decision is made. -/
theorem C90_reuse_after_unsat_fails : ∃ F : List Clause, (∀ c ∈ F, ∀ l ∈ c, l.var < 3) ∧ ¬ Satisfiable F ∧
    ∃ chs : List Choice,
      let r1 := (load 3 F).solveBudgeted 0 chs
      let r2 := r1.2.solveBudgeted 0 chs
      let r3 := r2.2.solveBudgeted 0 chs
      r1.1 = .unsat ∧ r2.1 = .unsat ∧ r3.1 = .sat [true, true, true] := by
  refine ⟨[[lit 1], [lit 2], [lit 3], [lit (-1), lit (-2), lit (-3)]], by decide, ?_, ?_⟩
  · rintro ⟨τ, h⟩
    have h1 := h [lit 1] (by simp)
    have h2 := h [lit 2] (by simp)
    have h3 := h [lit 3] (by simp)
    have h4 := h [lit (-1), lit (-2), lit (-3)] (by simp)
    simp [Clause.holds, Lit.holds, lit] at h1 h2 h3 h4
    simp [h1, h2, h3] at h4
  · exact ⟨chs0 20, by decide +kernel, by decide +kernel, by decide +kernel⟩

/-- C91 fails when a clause is added after a query: `a`, `b`, a query, then the clause `¬a ∨ ¬b`. The
next query still answers `Sat` with the model that falsifies it: the two literals it watches were
false and propagated before it came. No decision is made. -/
theorem C91_clause_after_query_fails : ∃ F : List Clause, ∃ c : Clause, (∀ c ∈ F, ∀ l ∈ c, l.var < 2) ∧
    (∀ l ∈ c, l.var < 2) ∧ ¬ Satisfiable (F ++ [c]) ∧
    ∃ chs : List Choice,
      let r1 := (load 2 F).solveAssuming [] chs
      let r2 := (r1.2.addClause c).solveAssuming [] chs
      r1.1 = .sat [true, true] ∧ r2.1 = .sat [true, true] := by
  refine ⟨[[lit 1], [lit 2]], [lit (-1), lit (-2)], by decide, by decide, ?_, ?_⟩
  · rintro ⟨τ, h⟩
    have h1 := h [lit 1] (by simp)
    have h2 := h [lit 2] (by simp)
    have h4 := h [lit (-1), lit (-2)] (by simp)
    simp [Clause.holds, Lit.holds, lit] at h1 h2 h4
    simp [h1, h2] at h4
  · exact ⟨chs0 20, by decide +kernel, by decide +kernel⟩

/-- C90 fails the other way round too: after a `Sat` answer the search state is still in place, and a
unit clause that contradicts the decisions of that search is taken for a contradiction of the formula:
`{a ∨ b}` and then `a` is reported `Unsat`. -/
theorem C90_unit_after_query_fails : ∃ F : List Clause, ∃ c : Clause, Satisfiable (F ++ [c]) ∧
    ∃ chs : List Choice,
      let r1 := (load 2 F).solveBudgeted 0 chs
      let r2 := (r1.2.addClause c).solveBudgeted 0 chs
      r1.1 = .sat [false, true] ∧ r2.1 = .unsat := by
  refine ⟨[[lit 1, lit 2]], [lit 1], ⟨fun _ => true, ?_⟩, chs0 20, by decide +kernel, by decide +kernel⟩
  intro c hc
  simp at hc
  rcases hc with rfl | rfl <;> exact ⟨lit 1, by simp, rfl⟩

end Verif.Props
