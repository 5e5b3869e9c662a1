import Verif.Sat.InprocKeep
import Verif.Props.Cdcl
/-!
# C94: `solve` with inprocessing

`solve` runs failed-literal probing, subsumption with self-subsuming resolution, and vivification of learned
clauses between restarts; `subsume`, `vivify` and `probe` run one round each. For every answer of the
heuristics and every inprocessing schedule.
-/

namespace Verif.Props
open Verif.Proof Verif.Sat

/-- One inprocessing call. -/
inductive SatRound
  | subsume
  | vivify
  | probe

/-- `subsume()`, `vivify()`, `probe()`: `cdcl.rs:381,405,418`. -/
def SatRound.run (S : Solver) : SatRound → Round
  | .subsume => S.subsumeRound 0
  | .vivify => S.vivifyRound 0
  | .probe => S.probeRound 0

/-- The solvers a caller can hold after `solve`: loaded and used as in C90 and C91, then asked to `solve`,
then any number of further `solve` calls and inprocessing calls, every `solve` having answered `Sat`
and every inprocessing call `true`. -/
inductive SatSolved (n : Nat) (F : List Clause) : Solver → Prop
  | solve {S : Solver} (chs : List (Choice × Option Bool)) (mdl : List Bool) : SatReached n F S →
      (S.solve chs).1 = .sat mdl → SatSolved n F (S.solve chs).2
  | again {S : Solver} (chs : List (Choice × Option Bool)) (mdl : List Bool) : SatSolved n F S →
      (S.solve chs).1 = .sat mdl → SatSolved n F (S.solve chs).2
  | round {S S' : Solver} (r : SatRound) : SatSolved n F S → r.run S = .ok S' → SatSolved n F S'

section
variable {n : Nat} {F : List Clause} {S : Solver}

private theorem core_setNOrig {k : Nat} (h : Core F S) : Core F { S with nOrig := k } :=
  { nodup := h.nodup, val := h.val, rng := h.rng, limS := h.limS, limB := h.limB, lev := h.lev,
    qle := h.qle, limQ := h.limQ, whyN := h.whyN, whyC := h.whyC, zeroU := h.zeroU, clsU := h.clsU,
    clsR := h.clsR, clsN := h.clsN, clsT := h.clsT, logU := h.logU, logR := h.logR, empU := h.empU, heapO := h.heapO, heapR := h.heapR }

theorem satEntry_ok (hr : ∀ c ∈ F, ∀ l ∈ c, l.var < n) (h : SatReached n F S) (chs : List (Choice × Option Bool)) :
    AnswerP F (load n F).clauses.length n (S.solve chs) := by
  obtain ⟨h | h, hn⟩ := satReached_ok hr h
  · have := solve_ok chs (m := (load n F).clauses.length) ⟨h.inv, h.rest, h.nle⟩
    rwa [hn] at this
  · have hs : S.solve chs = (.unsat, { S with nOrig := S.clauses.length }) := by
      unfold Solver.solve
      simp only
      rw [if_pos h.empty]
    rw [hs]
    exact ⟨h.core.empU h.empty, core_setNOrig h.core, hn, (fun _ e => by cases e), (fun e => by cases e), fun _ => ⟨h.orig, h.mle⟩⟩

theorem satRound_ok {m : Nat} (h : Between F m S) (h1 : m ≤ S.nOrig) (he : S.empty = false) (r : SatRound) :
    RoundOK F m S.n (r.run S) := by
  cases r with
  | subsume => exact subsumeRound_ok 0 h.inv he h1 h.nle
  | vivify => exact (vivifyRound_ok 0 h.inv he h1 h.nle).round
  | probe => exact (probeRound_ok 0 h.inv he h1 h.nle).round

theorem satSolved_ok (hr : ∀ c ∈ F, ∀ l ∈ c, l.var < n) (h : SatSolved n F S) :
    (Between F (load n F).clauses.length S ∧ (load n F).clauses.length ≤ S.nOrig ∧ S.empty = false) ∧ S.n = n := by
  induction h with
  | solve chs mdl hS e =>
    have := satEntry_ok hr hS chs
    exact ⟨this.after mdl e, this.n⟩
  | again chs mdl _ e ih =>
    have := solve_ok chs ih.1.1
    exact ⟨this.after mdl e, this.n.trans ih.2⟩
  | round r _ e ih =>
    have := satRound_ok ih.1.1 ih.1.2.1 ih.1.2.2 r
    rw [e] at this
    exact ⟨⟨⟨this.1.inv, .inl this.1.lim, this.1.nle⟩, this.1.mle, this.1.emp⟩, this.2.trans ih.2⟩

theorem satAny_ok (hr : ∀ c ∈ F, ∀ l ∈ c, l.var < n) (h : SatReached n F S ∨ SatSolved n F S)
    (chs : List (Choice × Option Bool)) : AnswerP F (load n F).clauses.length n (S.solve chs) := by
  rcases h with h | h
  · exact satEntry_ok hr h chs
  · obtain ⟨g, hn⟩ := satSolved_ok hr h
    have := solve_ok chs g.1
    rwa [hn] at this

/-- C94: whatever the formula, the history, the heuristics and the inprocessing schedule, a `Sat` from `solve`
carries a model of every clause and an `Unsat` is only said of an unsatisfiable formula. Missing
from the full statement: that the call does not panic (`C94_solve_panics_fails`). -/
theorem C94_solve_partial (hr : ∀ c ∈ F, ∀ l ∈ c, l.var < n) (h : SatReached n F S ∨ SatSolved n F S)
    (chs : List (Choice × Option Bool)) :
    (∀ mdl, (S.solve chs).1 = .sat mdl → GoodModel n F mdl) ∧
    ((S.solve chs).1 = .unsat → ¬ Satisfiable F) := by
  have hR := (satAny_ok hr h chs).right
  have hlog := (satAny_ok hr h chs).core.logU
  revert hR hlog
  rcases S.solve chs with ⟨v, S'⟩
  intro hR hlog
  revert hR
  cases v with
  | sat mdl => intro hR; exact ⟨fun _ e => (by cases e; exact hR), fun e => by cases e⟩
  | unsat => intro hR; exact ⟨fun _ e => (by cases e), fun _ => NoWorld.unsat hR hlog⟩
  | budget => intro hR; exact ⟨fun _ e => (by cases e), fun e => by cases e⟩
  | pending => intro hR; exact ⟨fun _ e => (by cases e), fun e => by cases e⟩
  | panic => intro hR; exact ⟨fun _ e => (by cases e), fun e => by cases e⟩

/-- C94: everything in the learned-clause log after `solve`, clauses shortened or derived by inprocessing
included, holds in every model of the formula: also after `Unsat`, and while the search still runs. -/
theorem C94_learned (hr : ∀ c ∈ F, ∀ l ∈ c, l.var < n) (h : SatReached n F S ∨ SatSolved n F S)
    (chs : List (Choice × Option Bool)) : ∀ c ∈ (S.solve chs).2.log, ∀ τ, Models τ F → Clause.holds τ c :=
  (satAny_ok hr h chs).core.log

/-- C94: an inprocessing call that returns `false` has refuted the formula; what it logs holds in every model
of the formula. -/
theorem C94_round (hr : ∀ c ∈ F, ∀ l ∈ c, l.var < n) (h : SatSolved n F S) (r : SatRound) :
    (∀ S', r.run S = .unsat S' → ¬ Satisfiable F ∧ ∀ c ∈ S'.log, ∀ τ, Models τ F → Clause.holds τ c) ∧
    (∀ S', r.run S = .ok S' → ∀ c ∈ S'.log, ∀ τ, Models τ F → Clause.holds τ c) := by
  obtain ⟨g, _⟩ := satSolved_ok hr h
  have := satRound_ok g.1 g.2.1 g.2.2 r
  refine ⟨fun S' e => ?_, fun S' e => ?_⟩
  · rw [e] at this
    exact ⟨NoWorld.unsat this.1 this.2.1.logU, this.2.1.log⟩
  · rw [e] at this
    exact this.1.inv.core.log

/-- C94: an inprocessing call loses nothing: whatever is in the clause database, each clause of it contains a
clause of the database afterwards, so deleting subsumed clauses leaves it as strong as it was. -/
theorem C94_round_keeps (S S' : Solver) (r : SatRound) (h : r.run S = .ok S') :
    ∀ c ∈ S.clauses, ∃ c' ∈ S'.clauses, ∀ l ∈ c', l ∈ c := by
  cases r with
  | subsume => exact subsumeRound_loses 0 h
  | vivify => exact (vivifyRound_shr 0 h).loses
  | probe => exact (probeRound_shr 0 h).loses

/-- C94: vivification and probing never panic. -/
theorem C94_round_total (hr : ∀ c ∈ F, ∀ l ∈ c, l.var < n) (h : SatSolved n F S) :
    (∀ S', SatRound.vivify.run S ≠ .panic S') ∧ ∀ S', SatRound.probe.run S ≠ .panic S' := by
  obtain ⟨g, _⟩ := satSolved_ok hr h
  refine ⟨fun S' e => ?_, fun S' e => ?_⟩
  · have := vivifyRound_ok 0 g.1.inv g.2.2 g.2.1 g.1.nle
    rw [show S.vivifyRound 0 = _ from e] at this
    exact this
  · have := probeRound_ok 0 g.1.inv g.2.2 g.2.1 g.1.nle
    rw [show S.probeRound 0 = _ from e] at this
    exact this

end

/-! ### Cases -/

/-- the first variable of the heap, polarity false -/
private def fst : Choice := ⟨fun _ => 0, fun _ => false, fun _ => true, false⟩
/-- restart after every conflict -/
private def fstR : Choice := ⟨fun _ => 0, fun _ => false, fun _ => true, true⟩
private def lit (i : Int) : Lit := ⟨i.natAbs - 1, decide (0 < i)⟩
private def G8 : List Clause :=
  [[1, 2, 3], [1, 2, -3], [1, -2, 3], [1, -2, -3], [-1, 2, 3], [-1, 2, -3], [-1, -2, 3], [-1, -2, -3]].map (·.map lit)

/-- An `Unsat` that inprocessing finds after the first conflict: probing is due after the restart. -/
example : (∀ c ∈ G8, ∀ l ∈ c, l.var < 3) ∧ SatReached 3 G8 { load 3 G8 with limit := 2000, reduceOn := true } ∧
    (({ load 3 G8 with limit := 2000, reduceOn := true } : Solver).solve
      (List.replicate 20 (fstR, some true))).1 = .unsat :=
  ⟨by decide, .start 2000 true, by decide +kernel⟩

private def chain : List SatRound → Solver → Option Solver
  | [], S => some S
  | r :: rs, S =>
    match r.run S with
    | .ok S' => chain rs S'
    | _ => none

private theorem chain_solved {n : Nat} {F : List Clause} : ∀ (rs : List SatRound) {S S' : Solver}, SatSolved n F S →
    chain rs S = some S' → SatSolved n F S'
  | [], S, S', h, e => by cases e; exact h
  | r :: rs, S, S', h, e => by
    rw [chain] at e
    cases hr : r.run S with
    | ok S1 => rw [hr] at e; exact chain_solved rs (.round r h hr) e
    | unsat S1 => rw [hr] at e; cases e
    | panic S1 => rw [hr] at e; cases e

/-- the first variable of the heap, polarity true -/
private def fstT : Choice := ⟨fun _ => 0, fun _ => true, fun _ => true, false⟩
private def usedS : Solver :=
  (({ load 3 G8.tail with limit := 2000, reduceOn := true } : Solver).solve (List.replicate 20 (fstT, none))).2

/-- A history of `solve` with learned clauses, `probe`, `subsume`, `vivify`, and `solve` again. -/
example : (∀ c ∈ G8.tail, ∀ l ∈ c, l.var < 3) ∧ ∃ S, SatSolved 3 G8.tail S ∧ S.log ≠ [] ∧
    (S.solve (List.replicate 20 (fst, none))).1 = .sat [false, false, false] := by
  have h0 : SatSolved 3 G8.tail usedS :=
    .solve (List.replicate 20 (fstT, none)) [false, false, false] (.start 2000 true) (by decide +kernel)
  have h1 : ((chain [.probe, .subsume, .vivify] usedS).map fun S =>
      (S.log.isEmpty, (S.solve (List.replicate 20 (fst, none))).1)) = some (false, .sat [false, false, false]) := by
    decide +kernel
  cases hc : chain [.probe, .subsume, .vivify] usedS with
  | none => rw [hc] at h1; cases h1
  | some S =>
    rw [hc] at h1
    simp only [Option.map_some, Option.some.injEq, Prod.mk.injEq] at h1
    exact ⟨by decide, S, chain_solved _ h0 hc, (by intro e; rw [e] at h1; simp at h1), h1.2⟩

/-! ### Where the code does not do it -/

private def codeLit (k : Nat) : Lit := ⟨k / 2, k % 2 == 0⟩
/-- Decide variable `v` with polarity `ph`; delete the learned clauses in `d` when a reduction is due. -/
private def aChoice (v : Nat) (ph : Bool) (d : List Nat) (restart : Bool) : Choice :=
  ⟨fun h => (h.takeWhile (· ≠ v)).length, fun _ => ph, fun i => d.contains i, restart⟩
private def Round.panics : Round → Bool
  | .panic _ => true
  | _ => false

private def panicF : List Clause :=
  ([[1, 27], [38, 33, 12], [4, 39], [19, 41, 14], [14, 8, 40], [23, 24, 2], [22, 28], [4, 37], [37, 39], [38,
    9, 20], [8, 36, 24], [0, 2, 36], [8, 30, 0], [3, 25, 16], [17, 34], [26, 33, 6], [21, 32], [14, 10], [29,
    15, 9], [41, 36, 3], [3, 15, 34], [9, 6, 33], [17, 31], [2, 13, 37], [32, 12], [7, 18], [14, 6, 33], [18,
    41, 2], [35, 10, 19], [16, 30], [9, 3, 11], [40, 7, 5], [19, 25], [2, 15, 37], [35, 18, 32], [31, 13], [6,
    15, 11]] :
    List (List Nat)).map (·.map codeLit)
/-- The decisions the code's own activity and phase heuristics make on `panicF` with `set_reduce_limit(12)`. -/
private def panicC : List Choice :=
  [aChoice 0 false [] false, aChoice 20 false [] false, aChoice 19 false [] false, aChoice 18 false [] false,
    aChoice 17 false [] false, aChoice 0 false [] false, aChoice 4 true [] false, aChoice 0 false [] false,
    aChoice 0 false [] false, aChoice 1 true [] false, aChoice 0 false [] false, aChoice 0 false [] false,
    aChoice 0 false [] false, aChoice 1 true [] false, aChoice 7 true [] false, aChoice 0 false [] false,
    aChoice 0 false [] false, aChoice 0 false [] false, aChoice 1 false [] false, aChoice 20 true [] false,
    aChoice 0 false [] false, aChoice 7 true [] false, aChoice 19 false [] false, aChoice 4 true [] false,
    aChoice 0 false [] false, aChoice 0 false [39, 40, 47] false]
private def panicS : Solver := { load 21 panicF with limit := 12, reduceOn := true }
private def plain : List (Choice × Option Bool) := panicC.map fun c => (c, none)

/-- C94 fails: `solve` can panic. Deleting learned clauses leaves the index of a deleted clause behind as the
reason of an unassigned variable, out of range once the database has shrunk; the next compaction
indexes with it. The reductions of the search leave enough conflicts between them for
the database to grow past the stale index (C90 proves that), but the subsumption round of inprocessing compacts whenever
it is due, here one conflict after a reduction. -/
theorem C94_solve_panics_fails : ∃ (n : Nat) (F : List Clause) (S : Solver) (chs : List (Choice × Option Bool)),
    (∀ c ∈ F, ∀ l ∈ c, l.var < n) ∧ SatReached n F S ∧ (S.solve chs).1 = .panic :=
  ⟨21, panicF, panicS, plain ++ [(aChoice 0 false [] true, some false)], by decide +kernel, .start 12 true,
    by decide +kernel⟩

/-- C94 fails for `subsume()` alone: `solve_budgeted(13)`, then `subsume()`. -/
theorem C94_subsume_panics_fails : ∃ (n : Nat) (F : List Clause) (S : Solver) (chs : List Choice),
    (∀ c ∈ F, ∀ l ∈ c, l.var < n) ∧ SatReached n F S ∧
    (S.solveBudgeted 13 chs).1 = .budget ∧
    ∃ S', SatRound.subsume.run (S.solveBudgeted 13 chs).2 = .panic S' := by
  refine ⟨21, panicF, panicS, panicC ++ [aChoice 0 false [] false], by decide +kernel, .start 12 true,
    by decide +kernel, ?_⟩
  have h : Round.panics (SatRound.subsume.run (panicS.solveBudgeted 13 (panicC ++ [aChoice 0 false [] false])).2) = true := by
    decide +kernel
  cases hr : SatRound.subsume.run (panicS.solveBudgeted 13 (panicC ++ [aChoice 0 false [] false])).2 with
  | panic S' => exact ⟨S', rfl⟩
  | ok S' => rw [hr] at h; cases h
  | unsat S' => rw [hr] at h; cases h

end Verif.Props
