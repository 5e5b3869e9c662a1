import Verif.Sat.SolveOk
/-!
# Inprocessing loses no clause

Every clause of the database before a round contains a clause of the database after it.
-/

namespace Verif.Sat
open Verif.Proof

section
variable {S : Solver}

/-- Clauses keep their places and gain no literal. -/
def Shr (A B : Solver) : Prop :=
  A.clauses.length ≤ B.clauses.length ∧ ∀ i < A.clauses.length, ∀ l ∈ B.clauses.getD i [], l ∈ A.clauses.getD i []

theorem Shr.refl (A : Solver) : Shr A A := ⟨Nat.le_refl _, fun _ _ _ h => h⟩

theorem Shr.trans {A B C : Solver} (h : Shr A B) (k : Shr B C) : Shr A C :=
  ⟨Nat.le_trans h.1 k.1, fun i hi l hl => h.2 i hi l (k.2 i (Nat.lt_of_lt_of_le hi h.1) l hl)⟩

theorem Shr.same {A B : Solver} (h : B.clauses = A.clauses) : Shr A B :=
  ⟨by rw [h]; exact Nat.le_refl _, fun i _ l hl => by rwa [h] at hl⟩

def Visit.len (n : Nat) : Visit → Prop
  | .keep _ S' | .move S' | .conflict _ S' => S'.clauses.length = n
  | .panic => True

theorem visit_len (f : Lit) (w : Watcher) : (visit S f w).len S.clauses.length := by
  unfold visit
  split
  · rfl
  split
  · split <;> rfl
  split
  · simp only
    split
    · exact List.length_set
    · split
      · exact List.length_set
      · split
        · exact List.length_set
        · exact List.length_set
  · trivial

theorem visitAll_len (f : Lit) (k : Nat) (kept todo : List Watcher) :
    (visitAll f k S kept todo).2.clauses.length = S.clauses.length := by
  induction k generalizing S kept todo with
  | zero => cases todo <;> rfl
  | succ k ih =>
    cases todo with
    | nil => rfl
    | cons w rest =>
      rw [visitAll]
      have hv := visit_len (S := S) f w
      revert hv
      cases visit S f w with
      | panic => exact fun _ => rfl
      | keep w' S' => exact fun hv => (ih _ _).trans hv
      | move S' => exact fun hv => (ih _ _).trans hv
      | conflict w' S' => exact fun hv => hv

theorem propLoop_len (k : Nat) : (propLoop k S).2.clauses.length = S.clauses.length := by
  induction k generalizing S with
  | zero => rfl
  | succ k ih =>
    rw [propLoop]
    split
    · rfl
    · rename_i p _
      have hv := visitAll_len (S := { S with qhead := S.qhead + 1, watches := upd S.watches p.negated [] })
        p.negated (S.watches p.negated).length [] (S.watches p.negated)
      revert hv
      simp only
      rcases visitAll p.negated (S.watches p.negated).length
        { S with qhead := S.qhead + 1, watches := upd S.watches p.negated [] } [] (S.watches p.negated) with ⟨r, S'⟩
      cases r with
      | done => exact fun hv => ih.trans hv
      | conflict ci => exact fun hv => hv
      | panic => exact fun hv => hv

theorem propagate_shr (S : Solver) : Shr S S.propagate.2 := by
  refine ⟨Nat.le_of_eq (propLoop_len _).symm, fun i _ l hl => ?_⟩
  exact ((propagate_tame (P := fun _ => True) fun _ _ _ => trivial).2 i l).1 hl

theorem unassign_clauses (ls : List Lit) : (ls.foldl Solver.unassign S).clauses = S.clauses := by
  induction ls generalizing S with
  | nil => rfl
  | cons l ls ih => rw [List.foldl_cons, ih]; rfl

theorem backtrackTo_clauses (lv : Nat) : (S.backtrackTo lv).clauses = S.clauses := by
  unfold Solver.backtrackTo
  split
  · rfl
  · exact unassign_clauses _

theorem settle_shr {S' : Solver} (h : S.settle = .ok S') : Shr S S' := by
  have hp := propagate_shr S
  unfold Solver.settle at h
  revert h hp
  rcases S.propagate with ⟨r, S1⟩
  cases r with
  | done => intro h hp; cases h; exact hp
  | conflict ci => intro h; cases h
  | panic => intro h; cases h

theorem start_shr {S' : Solver} (h : (S.backtrackTo 0).settle = .ok S') : Shr S S' :=
  (Shr.same (backtrackTo_clauses 0)).trans (settle_shr h)

theorem unwatch_clauses (ci : Nat) : (S.unwatch ci).clauses = S.clauses := by
  obtain ⟨W, h⟩ := unwatch_fields S ci
  rw [h]

theorem rewatchAt_clauses (ci : Nat) : (S.rewatchAt ci).clauses = S.clauses := by
  unfold Solver.rewatchAt
  split <;> rfl

theorem settleUnit_shr {S' : Solver} {u : Lit} {ci : Nat} (h : S.settleUnit u ci = .ok S') : Shr S S' := by
  unfold Solver.settleUnit at h
  split at h
  · cases h
  · exact settle_shr h
  · exact (Shr.same (B := S.enqueue u (some ci)) rfl).trans (settle_shr h)

theorem replace_shr {A S' : Solver} {ci : Nat} {c : List Lit} (hA : Shr A S) (hc : ∀ l ∈ c, l ∈ A.clauses.getD ci [])
    (h : S.replace ci c = .ok S') : Shr A S' := by
  have h1 : Shr A { S with clauses := S.clauses.set ci c, log := S.log ++ [c] } := by
    refine ⟨by simpa using hA.1, fun i hi l hl => ?_⟩
    have hl' : l ∈ (S.clauses.set ci c).getD i [] := hl
    by_cases e : ci = i
    · subst e
      rw [List.getD_eq_getElem?_getD, List.getElem?_set_self (Nat.lt_of_lt_of_le hi hA.1)] at hl'
      exact hc l hl'
    · rw [List.getD_eq_getElem?_getD, List.getElem?_set_ne e, ← List.getD_eq_getElem?_getD] at hl'
      exact hA.2 i hi l hl'
  unfold Solver.replace at h
  simp only at h
  split at h
  · cases h
  · exact h1.trans (settleUnit_shr h)
  · cases h
    exact h1.trans (Shr.same (rewatchAt_clauses ci))

theorem vivLoop_keeps {len : Nat} {ls kept : List Lit} {sh : Bool} {t : Trial} (h : vivLoop len ls sh kept S = some t) :
    Shr S t.st ∧ ∀ l ∈ t.kept, l ∈ kept ∨ l ∈ ls := by
  induction ls generalizing sh kept S with
  | nil => cases h; exact ⟨.refl _, fun l hl => .inl hl⟩
  | cons x ls ih =>
    have hone : ∀ l ∈ kept ++ [x], l ∈ kept ∨ l ∈ x :: ls := by
      intro l hl
      rcases List.mem_append.1 hl with hl | hl
      · exact .inl hl
      · simp at hl; exact .inr (by simp [hl])
    rw [vivLoop] at h
    split at h
    · obtain ⟨h1, h2⟩ := ih h
      exact ⟨h1, fun l hl => (h2 l hl).imp id (List.mem_cons_of_mem _)⟩
    · cases h; exact ⟨.refl _, hone⟩
    · have hp := (Shr.same (A := S) (B := S.decide x.negated) rfl).trans (propagate_shr _)
      revert h hp
      rcases (S.decide x.negated).propagate with ⟨r, S1⟩
      cases r with
      | panic => intro h; cases h
      | conflict ci => intro h hp; cases h; exact ⟨hp, hone⟩
      | done =>
        intro h hp
        obtain ⟨h1, h2⟩ := ih h
        refine ⟨hp.trans h1, fun l hl => ?_⟩
        rcases h2 l hl with h3 | h3
        · exact hone l h3
        · exact .inr (List.mem_cons_of_mem _ h3)

theorem vivifyAt_shr {S' : Solver} {ci : Nat} (h : S.vivifyAt ci = .ok S') : Shr S S' := by
  unfold Solver.vivifyAt at h
  simp only at h
  split at h
  · cases h
  · rename_i t ht
    obtain ⟨h1, h2⟩ := vivLoop_keeps ht
    have h3 := (Shr.same (unwatch_clauses (S := S) ci)).trans (h1.trans (Shr.same (backtrackTo_clauses 0)))
    split at h
    · refine replace_shr h3 (fun l hl => ?_) h
      rcases h2 l hl with h4 | h4
      · cases h4
      · exact h4
    · cases h
      exact h3.trans (Shr.same (rewatchAt_clauses ci))

theorem vivifyAll_shr {S' : Solver} (cap : Nat) (cis : List Nat) (h : vivifyAll cap cis S = .ok S') : Shr S S' := by
  induction cis generalizing S cap with
  | nil => cases cap <;> (cases h; exact .refl _)
  | cons ci cis ih =>
    cases cap with
    | zero => cases h; exact .refl _
    | succ cap =>
      rw [vivifyAll] at h
      split at h
      · exact ih _ h
      · revert h
        cases hv : S.vivifyAt ci with
        | ok S1 => intro h; exact (vivifyAt_shr hv).trans (ih _ h)
        | unsat S1 => intro h; cases h
        | panic S1 => intro h; cases h

theorem vivifyRound_shr {S' : Solver} (budget : Nat) (h : S.vivifyRound budget = .ok S') : Shr S S' := by
  unfold Solver.vivifyRound at h
  revert h
  cases h0 : (S.backtrackTo 0).settle with
  | ok S0 => intro h; exact (start_shr h0).trans (vivifyAll_shr _ _ h)
  | unsat S1 => intro h; cases h
  | panic S1 => intro h; cases h

theorem addRaw_shr (lits : List Lit) (b : Bool) : Shr S (S.addRaw lits b) := by
  have hc : (S.addRaw lits b).clauses = S.clauses ++ [lits] := by
    unfold Solver.addRaw
    simp only
    split
    · rfl
    · split <;> rfl
    · rfl
  refine ⟨by rw [hc]; simp, fun i hi l hl => ?_⟩
  rw [hc, List.getD_eq_getElem?_getD, List.getElem?_append_left hi, ← List.getD_eq_getElem?_getD] at hl
  exact hl

theorem probeLit_shr {S' : Solver} {p : Lit} (h : S.probeLit p = .ok S') : Shr S S' := by
  unfold Solver.probeLit at h
  have hp := (Shr.same (A := S) (B := S.decide p) rfl).trans (propagate_shr _)
  revert h hp
  rcases (S.decide p).propagate with ⟨r, S1⟩
  cases r with
  | panic => intro h; cases h
  | done => intro h hp; cases h; exact hp.trans (Shr.same (backtrackTo_clauses 0))
  | conflict ci =>
    simp only
    intro h hp
    split at h
    · cases h
    · exact hp.trans ((Shr.same (backtrackTo_clauses 0)).trans ((addRaw_shr _ _).trans (settle_shr h)))

theorem probeVar_shr {S' : Solver} {v : Nat} (h : S.probeVar v = .ok S') : Shr S S' := by
  unfold Solver.probeVar at h
  revert h
  cases h0 : S.probeLit ⟨v, true⟩ with
  | ok S1 =>
    simp only
    intro h
    split at h
    · exact (probeLit_shr h0).trans (probeLit_shr h)
    · cases h; exact probeLit_shr h0
  | unsat S1 => intro h; cases h
  | panic S1 => intro h; cases h

theorem probeAll_shr {S' : Solver} (cap : Nat) (vs : List Nat) (h : probeAll cap vs S = .ok S') : Shr S S' := by
  induction vs generalizing S cap with
  | nil => cases cap <;> (cases h; exact .refl _)
  | cons v vs ih =>
    cases cap with
    | zero => cases h; exact .refl _
    | succ cap =>
      rw [probeAll] at h
      split at h
      · revert h
        cases hv : S.probeVar v with
        | ok S1 => intro h; exact (probeVar_shr hv).trans (ih _ h)
        | unsat S1 => intro h; cases h
        | panic S1 => intro h; cases h
      · exact ih _ h

theorem probeRound_shr {S' : Solver} (budget : Nat) (h : S.probeRound budget = .ok S') : Shr S S' := by
  unfold Solver.probeRound at h
  revert h
  cases h0 : (S.backtrackTo 0).settle with
  | ok S0 => intro h; exact (start_shr h0).trans (probeAll_shr _ _ h)
  | unsat S1 => intro h; cases h
  | panic S1 => intro h; cases h

theorem strengthenAll_shr {del : List Nat} {S' : Solver} (str : List (Nat × Lit)) (h : strengthenAll del str S = .ok S') :
    Shr S S' := by
  induction str generalizing S with
  | nil => cases h; exact .refl _
  | cons x str ih =>
    obtain ⟨di, l⟩ := x
    rw [strengthenAll] at h
    split at h
    · exact ih h
    · simp only at h
      revert h
      cases hv : (S.unwatch di).replace di (((S.unwatch di).clauses.getD di []).filter fun x => Decidable.decide (x ≠ l)) with
      | ok S1 =>
        intro h
        exact (replace_shr (Shr.same (unwatch_clauses di))
          (fun q hq => by rw [← unwatch_clauses di]; exact (List.mem_filter.1 hq).1) hv).trans (ih h)
      | unsat S1 => intro h; cases h
      | panic S1 => intro h; cases h

theorem subLoop_subsumes {d c : List Lit} {pv : Option Lit} (h : subLoop d pv c = .subsumes) : ∀ x ∈ c, x ∈ d := by
  induction c generalizing pv with
  | nil => intro x hx; cases hx
  | cons x xs ih =>
    rw [subLoop.eq_def] at h
    simp only at h
    split at h
    · rename_i hx
      intro y hy
      rcases List.mem_cons.1 hy with rfl | hy
      · exact hx
      · exact ih h y hy
    · split at h
      · cases pv with
        | some p => cases h
        | none =>
          simp only at h
          exact absurd h (by
            clear ih h
            induction xs with
            | nil => intro h; cases h
            | cons y ys ihy =>
              intro h
              rw [subLoop.eq_def] at h
              simp only at h
              split at h
              · exact ihy h
              · split at h <;> cases h)
      · cases h

theorem findSub_subsumes {coded : List (List Lit)} {del : List Nat} {di : Nat} (tries : Nat) (cis : List Nat)
    (h : findSub coded del di tries cis = .subsumes) :
    ∃ ci ∈ cis, ci ≠ di ∧ ci ∉ del ∧ ∀ x ∈ coded.getD ci [], x ∈ coded.getD di [] := by
  induction cis generalizing tries with
  | nil => cases tries <;> cases h
  | cons ci cis ih =>
    have up : (∃ cj ∈ cis, cj ≠ di ∧ cj ∉ del ∧ ∀ x ∈ coded.getD cj [], x ∈ coded.getD di []) →
        ∃ cj ∈ ci :: cis, cj ≠ di ∧ cj ∉ del ∧ ∀ x ∈ coded.getD cj [], x ∈ coded.getD di [] :=
      fun ⟨cj, h1, h2⟩ => ⟨cj, List.mem_cons_of_mem _ h1, h2⟩
    rw [findSub.eq_def] at h
    simp only at h
    split at h
    · exact up (ih _ h)
    · rename_i hne
      cases tries with
      | zero => cases h
      | succ tries =>
        simp only at h
        split at h
        · exact up (ih _ h)
        · revert h
          cases hs : selfSubsumes (coded.getD ci []) (coded.getD di []) with
          | no => intro h; exact up (ih _ h)
          | subsumes =>
            intro _
            exact ⟨ci, by simp, fun e => hne (.inl e), fun e => hne (.inr e), subLoop_subsumes hs⟩
          | strengthen q => intro h; cases h

/-- Each deleted clause contains one that stays. -/
def Covered (coded : List (List Lit)) (del : List Nat) : Prop :=
  ∀ i ∈ del, ∃ j < coded.length, j ∉ del ∧ ∀ x ∈ coded.getD j [], x ∈ coded.getD i []

theorem subScan_covered {coded : List (List Lit)} {locked : Nat → Bool} (cap : Nat) (dis del : List Nat)
    (str : List (Nat × Lit)) (h : Covered coded del) : Covered coded (subScan coded locked cap dis del str).1 := by
  induction dis generalizing cap del str with
  | nil => cases cap <;> exact h
  | cons di dis ih =>
    cases cap with
    | zero => exact h
    | succ cap =>
      rw [subScan.eq_def]
      simp only
      split
      · exact ih _ _ _ h
      · split
        · exact ih _ _ _ h
        · rename_i r _
          cases hf : findSub coded del di 96 (occOf coded r.var) with
          | no => exact ih _ _ _ h
          | strengthen l => exact ih _ _ _ h
          | subsumes =>
            refine ih _ _ _ ?_
            split
            · exact h
            · obtain ⟨ci, h1, h2, h3, h4⟩ := findSub_subsumes _ _ hf
              have hnew : ci ∉ di :: del := by simp [h2, h3]
              intro i hi
              rcases List.mem_cons.1 hi with rfl | hi
              · exact ⟨ci, occOf_lt h1, hnew, h4⟩
              · obtain ⟨j, j1, j2, j3⟩ := h i hi
                by_cases e : j = di
                · subst e
                  exact ⟨ci, occOf_lt h1, hnew, fun x hx => j3 x (h4 x hx)⟩
                · exact ⟨j, j1, by simp [e, j2], j3⟩

/-- Compaction keeps what is not deleted. -/
theorem compact_keeps {S' : Solver} {del : Nat → Bool} (h : S.compact del = some S') {i : Nat} (hi : i < S.clauses.length)
    (hd : del i = false) : S.clauses.getD i [] ∈ S'.clauses := by
  have hm : S.clauses.getD i [] ∈ S.clauses := by
    rw [List.getD_eq_getElem?_getD, List.getElem?_eq_getElem hi]
    exact List.getElem_mem hi
  unfold Solver.compact at h
  simp only at h
  split at h
  · cases h; exact hm
  · split at h
    · cases h
    · cases h
      exact List.mem_map.2 ⟨i, List.mem_filter.2 ⟨List.mem_range.2 hi, by simp [hd]⟩, rfl⟩

/-- Every clause contains one of the new database. -/
def Loses0 (A B : Solver) : Prop := ∀ c ∈ A.clauses, ∃ c' ∈ B.clauses, ∀ l ∈ c', l ∈ c

theorem Shr.loses {A B : Solver} (h : Shr A B) : Loses0 A B := by
  intro c hc
  obtain ⟨i, hi, rfl⟩ := List.mem_iff_getElem.1 hc
  have hB := Nat.lt_of_lt_of_le hi h.1
  refine ⟨B.clauses[i], List.getElem_mem hB, fun l hl => ?_⟩
  have := h.2 i hi l (by rw [List.getD_eq_getElem?_getD, List.getElem?_eq_getElem hB]; exact hl)
  rwa [List.getD_eq_getElem?_getD, List.getElem?_eq_getElem hi] at this

theorem subsumeRound_loses {S' : Solver} (budget : Nat) (h : S.subsumeRound budget = .ok S') : Loses0 S S' := by
  unfold Solver.subsumeRound at h
  revert h
  cases h0 : (S.backtrackTo 0).settle with
  | unsat S1 => intro h; cases h
  | panic S1 => intro h; cases h
  | ok S0 =>
    have g0 := start_shr h0
    simp only
    intro h
    split at h
    · cases h; exact g0.loses
    · revert h
      have hcov := subScan_covered (coded := S0.clauses.map normClause) (locked := S0.locked)
        (if budget = 0 then S0.clauses.length else budget) ((List.range S0.clauses.length).drop S0.nOrig) [] []
        (fun i hi => by cases hi)
      revert hcov
      generalize subScan (S0.clauses.map normClause) S0.locked
        (if budget = 0 then S0.clauses.length else budget) ((List.range S0.clauses.length).drop S0.nOrig) [] [] = scan
      intro hcov
      cases h1 : strengthenAll scan.1 scan.2 S0 with
      | unsat S1 => intro h; cases h
      | panic S1 => intro h; cases h
      | ok S1 =>
        have g1 := strengthenAll_shr _ h1
        simp only
        intro h
        split at h
        · cases h
        · rename_i S2 h2
          cases h
          have g := g0.trans g1
          intro c hc
          obtain ⟨i, hi, rfl⟩ := List.mem_iff_getElem.1 hc
          have hi0 := Nat.lt_of_lt_of_le hi g0.1
          have hin : ∀ l ∈ S0.clauses.getD i [], l ∈ S.clauses[i] := by
            intro l hl
            have := g0.2 i hi l hl
            rwa [List.getD_eq_getElem?_getD, List.getElem?_eq_getElem hi] at this
          have hkeep : ∀ j < S0.clauses.length, j ∉ scan.1 → S1.clauses.getD j [] ∈ S'.clauses := by
            intro j hj hn
            exact compact_keeps h2 (Nat.lt_of_lt_of_le hj g1.1) (by simpa using hn)
          by_cases hd : i ∈ scan.1
          · obtain ⟨j, j1, j2, j3⟩ := hcov i hd
            rw [List.length_map] at j1
            have hnorm : ∀ k < S0.clauses.length, (S0.clauses.map normClause).getD k [] = normClause (S0.clauses.getD k []) := by
              intro k hk
              simp only [List.getD_eq_getElem?_getD, List.getElem?_map, List.getElem?_eq_getElem hk, Option.map_some, Option.getD_some]
            rw [hnorm i hi0, hnorm j j1] at j3
            refine ⟨_, hkeep j j1 j2, fun l hl => ?_⟩
            exact hin l ((normClause_mem _ l).1 (j3 l ((normClause_mem _ l).2 (g1.2 j j1 l hl))))
          · exact ⟨_, hkeep i hi0 hd, fun l hl => hin l (g1.2 i hi0 l hl)⟩

end

end Verif.Sat
