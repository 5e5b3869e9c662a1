import Verif.Props.SatSolve
import Verif.Props.Rup
/-!
# C95: the solver's refutations replay

The clauses the solver logged, replayed by the checker of C21 over the formula itself and over
`original_clauses()`, which is what `entails_certified` and `prove_unsat` do before they believe an `Unsat`.
-/

namespace Verif.Props
open Verif.Proof Verif.Sat

section
variable {n : Nat} {F : List Clause} {S : Solver}

private theorem isRupProof_of {O : List Clause} : ∀ (post pre log : List Clause), log = pre ++ post →
    (∀ (i : Nat) (c : Clause), log[i]? = some c → UPEnt (O ++ log.take i) c) → NoWorld (O ++ log) →
    IsRupProof (O ++ pre) post
  | [], pre, log, e, _, hw => by
    rw [List.append_nil] at e
    subst e
    exact UPEnt.conflict (c := []) fun P hP _ => hw P hP
  | c :: post, pre, log, e, hd, hw => by
    subst e
    refine ⟨?_, ?_⟩
    · have := hd pre.length c (by simp)
      rw [List.take_left] at this
      exact this.conflict
    · have := isRupProof_of post (pre ++ [c]) (pre ++ c :: post) (by simp) hd hw
      rwa [← List.append_assoc] at this

private theorem accepted {O log : List Clause} (ho : ∀ c ∈ O, ∀ l ∈ c, l.var < n)
    (hl : ∀ c ∈ log, ∀ l ∈ c, l.var < n) (hd : ∀ (i : Nat) (c : Clause), log[i]? = some c → UPEnt (O ++ log.take i) c)
    (hw : NoWorld (O ++ log)) : checkRefutation n O log = some true := by
  have h := isRupProof_of log [] log rfl hd hw
  rw [List.append_nil] at h
  rcases C21_accepts_exactly n O log ho hl with ⟨h1, _⟩ | ⟨_, h2⟩
  · exact h1
  · exact absurd h h2

private theorem both {m : Nat} (hr : ∀ c ∈ F, ∀ l ∈ c, l.var < n) (hn : S.n = n) (hw : NoWorld (F ++ S.log)) (hc : Core F S)
    (hh : Held F m S) : checkRefutation n F S.log = some true ∧ checkRefutation n S.originals S.log = some true := by
  have hlog : ∀ c ∈ S.log, ∀ l ∈ c, l.var < n := by rw [← hn]; exact hc.logR
  refine ⟨accepted hr hlog hc.logU hw, ?_⟩
  have hF : ∀ c ∈ F, (∀ τ, Clause.holds τ c) ∨ ∃ c' ∈ S.originals, ∀ l ∈ c', l ∈ c := by
    intro c hcF
    rcases hh.1 c hcF with h | ⟨ci, hlt, c', h1, h2⟩
    · exact .inl h
    · refine .inr ⟨c', ?_, h2⟩
      exact mem_take_iff.2 ⟨ci, Nat.lt_of_lt_of_le hlt hh.2, h1⟩
  refine accepted ?_ hlog (fun i c hi => (hc.logU i c hi).cover hF) (hw.cover hF)
  intro c hcO
  rw [← hn]
  exact hc.clsR c (List.mem_of_mem_take hcO)

/-- C95: after an `Unsat` from `solve_budgeted`, whatever the formula, the history, the budget and the
heuristics, the checker accepts the log as a refutation: of the formula that was loaded, and of what
`original_clauses()` returns. -/
theorem C95_budgeted (hr : ∀ c ∈ F, ∀ l ∈ c, l.var < n) (h : SatReached n F S) (max : Nat) (chs : List Choice)
    (hu : (S.solveBudgeted max chs).1 = .unsat) :
    checkRefutation n F (S.solveBudgeted max chs).2.log = some true ∧
    checkRefutation n (S.solveBudgeted max chs).2.originals (S.solveBudgeted max chs).2.log = some true := by
  obtain ⟨h | h, hn⟩ := satReached_ok hr h
  · have ha := (budgeted_ok max chs h).1
    have hR := ha.right
    rw [hu] at hR
    exact both hr (ha.n.trans hn) hR ha.core (ha.held hu)
  · obtain ⟨_, _, g3, g4⟩ := latched_budgeted h max chs
    have hn' : (S.solveBudgeted max chs).2.n = n := by
      unfold Solver.solveBudgeted
      simp only [h.empty, if_true]
      exact hn
    exact both hr hn' (g3.core.empU g3.empty) g3.core g4

/-- C95: the same after an `Unsat` from `solve`, with every inprocessing schedule: clauses that probing,
subsumption and vivification derived are found by the checker as well. -/
theorem C95_solve (hr : ∀ c ∈ F, ∀ l ∈ c, l.var < n) (h : SatReached n F S ∨ SatSolved n F S)
    (chs : List (Choice × Option Bool)) (hu : (S.solve chs).1 = .unsat) :
    checkRefutation n F (S.solve chs).2.log = some true ∧
    checkRefutation n (S.solve chs).2.originals (S.solve chs).2.log = some true := by
  have ha := satAny_ok hr h chs
  have hR := ha.right
  rw [hu] at hR
  exact both hr ha.n hR ha.core (ha.held hu)

/-- C95: and after an inprocessing call that returned `false`. -/
theorem C95_round (hr : ∀ c ∈ F, ∀ l ∈ c, l.var < n) (h : SatSolved n F S) (r : SatRound) (S' : Solver)
    (hu : r.run S = .unsat S') :
    checkRefutation n F S'.log = some true ∧ checkRefutation n S'.originals S'.log = some true := by
  obtain ⟨g, hn⟩ := satSolved_ok hr h
  have := satRound_ok g.1 g.2.1 g.2.2 r
  rw [hu] at this
  exact both hr (this.2.2.1.trans hn) this.1 this.2.1 this.2.2.2

/-- C95, whatever the verdict: every clause in the log passes the checker's test against the formula and the
clauses logged before it, also while a call still runs. -/
theorem C95_steps (hr : ∀ c ∈ F, ∀ l ∈ c, l.var < n) (h : SatReached n F S) (c : SatCall) (hf : c.Fits n) (i : Nat) (d : Clause)
    (hd : (c.run S).2.log[i]? = some d) : isRup n (F ++ (c.run S).2.log.take i) d = some true := by
  have key : Core F (c.run S).2 ∧ (c.run S).2.n = n := by
    obtain ⟨h | h, hn⟩ := satReached_ok hr h
    · cases c with
      | budgeted max chs => exact ⟨(budgeted_ok max chs h).1.core, (budgeted_ok max chs h).1.n.trans hn⟩
      | assuming as chs =>
        have := assuming_ok as chs (by rw [hn]; exact hf) h
        exact ⟨this.core, this.n.trans hn⟩
    · cases c with
      | budgeted max chs =>
        refine ⟨(latched_budgeted h max chs).2.2.1.core, ?_⟩
        show (S.solveBudgeted max chs).2.n = n
        unfold Solver.solveBudgeted
        simp only [h.empty, if_true]
        exact hn
      | assuming as chs =>
        obtain ⟨_, g2, g3⟩ := latched_assuming h as chs
        exact ⟨g2.core, g3.trans hn⟩
  obtain ⟨hc, hn⟩ := key
  have hu := (hc.logU i d hd).conflict
  have hlog : ∀ c' ∈ (c.run S).2.log, ∀ l ∈ c', l.var < n := by rw [← hn]; exact hc.logR
  rcases upConflict_iff (n := n) (db := F ++ (c.run S).2.log.take i) (ls := d.map Lit.negated)
      (by
        intro x hx
        rcases List.mem_append.1 hx with hx | hx
        · exact hr x hx
        · exact hlog x (List.mem_of_mem_take hx))
      (by
        intro l hl
        obtain ⟨m, hm, rfl⟩ := List.mem_map.1 hl
        exact hlog d (List.mem_of_getElem? hd) m hm) with ⟨h1, _⟩ | ⟨_, h2⟩
  · exact h1
  · exact absurd hu h2

end

/-! ### Cases -/

private def fst : Choice := ⟨fun _ => 0, fun _ => false, fun _ => true, false⟩
private def fstR : Choice := ⟨fun _ => 0, fun _ => false, fun _ => true, true⟩
private def lit (i : Int) : Lit := ⟨i.natAbs - 1, decide (0 < i)⟩
private def all8 : List Clause :=
  [[1, 2, 3], [1, 2, -3], [1, -2, 3], [1, -2, -3], [-1, 2, 3], [-1, 2, -3], [-1, -2, 3], [-1, -2, -3]].map (·.map lit)

/-- A refutation whose log is needed: propagation alone does not refute the formula, with the log it does. -/
example : (∀ c ∈ all8, ∀ l ∈ c, l.var < 3) ∧ SatReached 3 all8 { load 3 all8 with limit := 2000, reduceOn := true } ∧
    (({ load 3 all8 with limit := 2000, reduceOn := true } : Solver).solveBudgeted 0 (List.replicate 20 fst)).1 = .unsat ∧
    checkRefutation 3 all8 [] = some false ∧
    checkRefutation 3 all8 (({ load 3 all8 with limit := 2000, reduceOn := true } : Solver).solveBudgeted 0
      (List.replicate 20 fst)).2.log = some true :=
  ⟨by decide, .start 2000 true, by decide +kernel, by decide +kernel, by decide +kernel⟩

/-- One found by inprocessing. -/
example : (({ load 3 all8 with limit := 2000, reduceOn := true } : Solver).solve
      (List.replicate 20 (fstR, some true))).1 = .unsat ∧
    (({ load 3 all8 with limit := 2000, reduceOn := true } : Solver).solve
      (List.replicate 20 (fstR, some true))).2.log ≠ [] := by
  constructor <;> decide +kernel

end Verif.Props
