import Verif.Sat.InprocOk
/-!
# Subsumption, and the verdicts of `solve`
-/

namespace Verif.Sat
open Verif.Proof

section
variable {F : List Clause} {m : Nat} {S : Solver}

theorem subLoop_strengthen {d c : List Lit} {pv : Option Lit} {p : Lit} (h : subLoop d pv c = .strengthen p) :
    (pv = some p ∨ (pv = none ∧ p.negated ∈ c)) ∧ ∀ x ∈ c, x ∈ d ∨ x = p.negated := by
  induction c generalizing pv with
  | nil =>
    cases pv with
    | none => cases h
    | some q => cases h; exact ⟨.inl rfl, fun x hx => by cases hx⟩
  | cons x xs ih =>
    rw [subLoop.eq_def] at h
    simp only at h
    by_cases hx : x ∈ d
    · rw [if_pos hx] at h
      obtain ⟨h1, h2⟩ := ih h
      refine ⟨?_, ?_⟩
      · rcases h1 with h1 | h1
        · exact .inl h1
        · exact .inr ⟨h1.1, List.mem_cons_of_mem _ h1.2⟩
      · intro y hy
        rcases List.mem_cons.1 hy with rfl | hy
        · exact .inl hx
        · exact h2 y hy
    · rw [if_neg hx] at h
      by_cases hn : x.negated ∈ d
      · rw [if_pos hn] at h
        cases pv with
        | some q => cases h
        | none =>
          simp only at h
          obtain ⟨h1, h2⟩ := ih h
          have e : x.negated = p := by
            rcases h1 with h1 | h1
            · exact Option.some.inj h1
            · cases h1.1
          have e2 : x = p.negated := by rw [← e]; simp [Lit.negated]
          refine ⟨.inr ⟨rfl, by rw [← e2]; simp⟩, ?_⟩
          intro y hy
          rcases List.mem_cons.1 hy with rfl | hy
          · exact .inr e2
          · exact h2 y hy
      · rw [if_neg hn] at h; cases h

/-- Dropping the pivot leaves the resolvent, which unit propagation finds. -/
theorem strengthen_ent {D : List Clause} {c d : List Lit} {p : Lit} (hc : Acts D c) (ht : ∀ l ∈ c, l.negated ∉ c)
    (hd : Acts D d) (h : selfSubsumes c d = .strengthen p) : ∀ R : List Lit, (∀ l ∈ d, l ≠ p → l ∈ R) → UPEnt D R := by
  obtain ⟨h1, h2⟩ := subLoop_strengthen h
  have hp : p.negated ∈ c := by
    rcases h1 with h1 | h1
    · cases h1
    · exact h1.2
  intro R hR P hP hk
  refine hd.conf P hP fun q hq => ?_
  by_cases e : q = p
  · subst e
    refine hc.unit P hP _ hp fun x hx hne => ?_
    rcases h2 x hx with h3 | rfl
    · refine hk x (hR x h3 ?_)
      rintro rfl
      exact ht x hx hp
    · exact absurd rfl hne
  · exact hk q (hR q hq e)

theorem findSub_strengthen {coded : List (List Lit)} {del : List Nat} {di : Nat} (tries : Nat) (cis : List Nat) {p : Lit}
    (h : findSub coded del di tries cis = .strengthen p) :
    ∃ ci ∈ cis, selfSubsumes (coded.getD ci []) (coded.getD di []) = .strengthen p := by
  induction cis generalizing tries with
  | nil => cases tries <;> cases h
  | cons ci cis ih =>
    rw [findSub.eq_def] at h
    simp only at h
    split at h
    · obtain ⟨cj, h1, h2⟩ := ih _ h
      exact ⟨cj, List.mem_cons_of_mem _ h1, h2⟩
    · cases tries with
      | zero => cases h
      | succ tries =>
        simp only at h
        split at h
        · obtain ⟨cj, h1, h2⟩ := ih _ h
          exact ⟨cj, List.mem_cons_of_mem _ h1, h2⟩
        · revert h
          cases hs : selfSubsumes (coded.getD ci []) (coded.getD di []) with
          | no =>
            intro h
            obtain ⟨cj, h1, h2⟩ := ih _ h
            exact ⟨cj, List.mem_cons_of_mem _ h1, h2⟩
          | subsumes => intro h; cases h
          | strengthen q => intro h; cases h; exact ⟨ci, by simp, hs⟩

theorem occOf_lt {coded : List (List Lit)} {v ci : Nat} (h : ci ∈ occOf coded v) : ci < coded.length := by
  unfold occOf at h
  rw [List.mem_flatMap] at h
  obtain ⟨i, hi, hm⟩ := h
  obtain ⟨_, _, rfl⟩ := List.mem_map.1 hm
  exact List.mem_range.1 hi

/-- What the scan finds. -/
structure Found (coded : List (List Lit)) (lo : Nat) (del : List Nat) (str : List (Nat × Lit)) : Prop where
  dels : ∀ i ∈ del, lo ≤ i
  strs : ∀ x ∈ str, lo ≤ x.1 ∧ x.1 < coded.length ∧
    ∃ ci < coded.length, selfSubsumes (coded.getD ci []) (coded.getD x.1 []) = .strengthen x.2
  once : (str.map Prod.fst).Nodup

theorem subScan_ok {coded : List (List Lit)} {locked : Nat → Bool} {lo : Nat} (cap : Nat) (dis del : List Nat)
    (str : List (Nat × Lit)) (hn : dis.Nodup) (hd : ∀ i ∈ dis, lo ≤ i ∧ i < coded.length)
    (hs : ∀ x ∈ str, x.1 ∉ dis) (h : Found coded lo del str) :
    Found coded lo (subScan coded locked cap dis del str).1 (subScan coded locked cap dis del str).2 := by
  induction dis generalizing cap del str with
  | nil => cases cap <;> exact h
  | cons di dis ih =>
    cases cap with
    | zero => exact h
    | succ cap =>
      rw [subScan.eq_def]
      simp only
      have hn' := List.nodup_cons.1 hn
      have hd' : ∀ i ∈ dis, lo ≤ i ∧ i < coded.length := fun i hi => hd i (List.mem_cons_of_mem _ hi)
      have hs' : ∀ x ∈ str, x.1 ∉ dis := fun x hx hm => hs x hx (List.mem_cons_of_mem _ hm)
      split
      · exact ih _ _ _ hn'.2 hd' hs' h
      · split
        · exact ih _ _ _ hn'.2 hd' hs' h
        · rename_i r _
          cases hf : findSub coded del di 96 (occOf coded r.var) with
          | no => exact ih _ _ _ hn'.2 hd' hs' h
          | subsumes =>
            refine ih _ _ _ hn'.2 hd' hs' ⟨?_, h.strs, h.once⟩
            intro i hi
            split at hi
            · exact h.dels i hi
            · rcases List.mem_cons.1 hi with rfl | hi
              · exact (hd i (by simp)).1
              · exact h.dels i hi
          | strengthen l =>
            obtain ⟨ci, hci, hss⟩ := findSub_strengthen _ _ hf
            refine ih _ _ _ hn'.2 hd' ?_ ⟨h.dels, ?_, ?_⟩
            · intro x hx
              rcases List.mem_append.1 hx with hx | hx
              · exact hs' x hx
              · simp at hx; subst hx; exact hn'.1
            · intro x hx
              rcases List.mem_append.1 hx with hx | hx
              · exact h.strs x hx
              · simp at hx; subst hx
                exact ⟨(hd di (by simp)).1, (hd di (by simp)).2, ci, occOf_lt hci, hss⟩
            · rw [List.map_append, List.nodup_append]
              refine ⟨h.once, by simp, ?_⟩
              intro a ha b hb e
              simp at hb; subst hb; subst e
              obtain ⟨x, hx, hxe⟩ := List.mem_map.1 ha
              exact hs x hx (by rw [hxe]; simp)

theorem unwatch_fields (S : Solver) (ci : Nat) : ∃ W, S.unwatch ci = { S with watches := W } := by
  unfold Solver.unwatch
  split
  · exact ⟨_, rfl⟩
  · exact ⟨S.watches, rfl⟩

theorem strengthenAll_ok {del : List Nat} (str : List (Nat × Lit)) (h : Top F m S)
    (hb : ∀ x ∈ str, m ≤ x.1 ∧ x.1 < S.clauses.length) (hn : (str.map Prod.fst).Nodup)
    (hent : ∀ x ∈ str, UPEnt (F ++ S.log) ((S.clauses.getD x.1 []).filter fun y => decide (y ≠ x.2))) :
    StepOK F m S.n (fun S' => S'.clauses.length = S.clauses.length ∧ S'.nOrig = S.nOrig) (strengthenAll del str S) := by
  induction str generalizing S with
  | nil => exact ⟨h, rfl, rfl, rfl⟩
  | cons x str ih =>
    obtain ⟨di, l⟩ := x
    rw [List.map_cons, List.nodup_cons] at hn
    rw [strengthenAll]
    have hb' : ∀ x ∈ str, m ≤ x.1 ∧ x.1 < S.clauses.length := fun x hx => hb x (List.mem_cons_of_mem _ hx)
    have hent' : ∀ x ∈ str, UPEnt (F ++ S.log) ((S.clauses.getD x.1 []).filter fun y => decide (y ≠ x.2)) :=
      fun x hx => hent x (List.mem_cons_of_mem _ hx)
    split
    · exact ih h hb' hn.2 hent'
    · simp only
      have hb0 := hb (di, l) (by simp)
      obtain ⟨W, e, hW, hid⟩ := unwatch_ok h.inv hb0.1
      rw [e]
      have hcl := getD_some hb0.2
      have hmem := List.mem_of_getElem? hcl
      have hsub : ((S.clauses.getD di []).filter fun y => decide (y ≠ l)).Sublist (S.clauses.getD di []) :=
        List.filter_sublist
      have hs := replace_ok (S := { S with watches := W }) (ci := di)
        (c := (S.clauses.getD di []).filter fun y => decide (y ≠ l))
        ⟨hW, h.lim, h.fix, h.emp, h.mle, h.nle⟩ hb0.1 hb0.2 hid (hent (di, l) (by simp))
        (fun q hq => h.inv.core.clsR _ hmem q (hsub.subset hq)) ((h.inv.core.clsN _ hmem).sublist hsub)
        (fun q hq hn => h.inv.core.clsT _ hmem q (hsub.subset hq) (hsub.subset hn))
      revert hs
      show StepOK F m S.n (Kept (· = di) { S with watches := W }) (Solver.replace { S with watches := W } di
        ((S.clauses.getD di []).filter fun y => decide (y ≠ l))) → StepOK F m S.n _ (match Solver.replace
        { S with watches := W } di ((S.clauses.getD di []).filter fun y => decide (y ≠ l)) with
        | .ok S2 => strengthenAll del str S2 | r => r)
      cases Solver.replace { S with watches := W } di ((S.clauses.getD di []).filter fun y => decide (y ≠ l)) with
      | unsat S' => exact fun hs => hs
      | panic S' => exact fun hs => hs
      | ok S' =>
        rintro ⟨g1, g2, g3⟩
        have hl : S'.clauses.length = S.clauses.length := g3.len
        have ho : S'.nOrig = S.nOrig := g3.nOrig
        have := ih g1 (by rw [hl]; exact hb') hn.2 (by
          intro x hx
          refine ((hent' x hx).mono (D' := F ++ S'.log) ?_).weaken ?_
          · intro d hd
            rcases List.mem_append.1 hd with hd | hd
            · exact List.mem_append_left _ hd
            · exact List.mem_append_right _ (g3.log d hd)
          intro q hq
          rw [List.mem_filter] at hq ⊢
          refine ⟨(g3.mem x.1 ?_ q).2 hq.1, hq.2⟩
          intro e
          exact hn.1 (List.mem_map.2 ⟨x, hx, e⟩))
        rw [g2, hl, ho] at this
        exact this

/-- A round went well or panicked. -/
def RoundOK (F : List Clause) (m : Nat) (n : Nat) : Round → Prop
  | .ok S' => Top F m S' ∧ S'.n = n
  | .unsat S' => NoWorld (F ++ S'.log) ∧ Core F S' ∧ S'.n = n ∧ Held F m S'
  | .panic S' => Core F S' ∧ S'.n = n

theorem StepOK.round {n : Nat} {R : Solver → Prop} {r : Round} (h : StepOK F m n R r) : RoundOK F m n r := by
  cases r with
  | ok S' => exact ⟨h.1, h.2.1⟩
  | unsat S' => exact h
  | panic S' => exact h.elim

theorem subsumeRound_ok (budget : Nat) (h : Inv F m S) (he : S.empty = false) (h1 : m ≤ S.nOrig)
    (h2 : S.nOrig ≤ S.clauses.length) : RoundOK F m S.n (S.subsumeRound budget) := by
  unfold Solver.subsumeRound
  have hs := start_ok h he h1 h2
  revert hs
  cases (S.backtrackTo 0).settle with
  | unsat S' => exact fun hs => hs
  | panic S' => exact fun hs => hs.elim
  | ok S0 =>
    rintro ⟨g1, g2, _⟩
    simp only
    split
    · exact ⟨g1, g2⟩
    have hlen : (S0.clauses.map normClause).length = S0.clauses.length := List.length_map _
    have hget : ∀ i < S0.clauses.length, (S0.clauses.map normClause).getD i [] = normClause (S0.clauses.getD i []) := by
      intro i hi
      simp [List.getD_eq_getElem?_getD, hi]
    have hf := subScan_ok (coded := S0.clauses.map normClause) (locked := S0.locked) (lo := S0.nOrig)
      (if budget = 0 then S0.clauses.length else budget) ((List.range S0.clauses.length).drop S0.nOrig) [] []
      (List.nodup_range.sublist (List.drop_sublist _ _))
      (by
        intro i hi
        rw [List.mem_iff_getElem] at hi
        obtain ⟨j, hj, rfl⟩ := hi
        simp at hj ⊢
        omega)
      (fun x hx => by cases hx) ⟨(fun i hi => by cases hi), (fun x hx => by cases hx), List.nodup_nil⟩
    revert hf
    generalize subScan (S0.clauses.map normClause) S0.locked (if budget = 0 then S0.clauses.length else budget)
      ((List.range S0.clauses.length).drop S0.nOrig) [] [] = scan
    obtain ⟨del, str⟩ := scan
    intro hf
    have hst := strengthenAll_ok (del := del) str g1
      (by
        intro x hx
        obtain ⟨k1, k2, _⟩ := hf.strs x hx
        rw [hlen] at k2
        exact ⟨Nat.le_trans g1.mle k1, k2⟩) hf.once
      (by
        intro x hx
        obtain ⟨_, k2, ci, k3, k4⟩ := hf.strs x hx
        rw [hlen] at k2 k3
        rw [hget _ k2, hget _ k3] at k4
        have hmC := List.mem_of_getElem? (getD_some k3)
        have hmD := List.mem_of_getElem? (getD_some k2)
        have hnorm : ∀ {c : Clause}, Acts (F ++ S0.log) c → Acts (F ++ S0.log) (normClause c) :=
          fun hc => hc.congr (normClause_mem _)
        refine strengthen_ent (hnorm (g1.inv.core.clsU _ hmC)) ?_ (hnorm (g1.inv.core.clsU _ hmD)) k4 _ ?_
        · intro l hl hn
          exact g1.inv.core.clsT _ hmC l ((normClause_mem _ _).1 hl) ((normClause_mem _ _).1 hn)
        · intro l hl hne
          exact List.mem_filter.2 ⟨(normClause_mem _ _).1 hl, by simpa using hne⟩)
    revert hst
    simp only
    cases strengthenAll del str S0 with
    | unsat S' =>
      rintro ⟨k1, k2, k3, k4⟩
      exact ⟨k1, k2, k3.trans g2, k4⟩
    | panic S' => exact fun hst => hst.elim
    | ok S1 =>
      rintro ⟨k1, k2, k3, k4⟩
      simp only
      cases hc : S1.compact fun ci => del.contains ci with
      | none => exact ⟨k1.inv.core, k2.trans g2⟩
      | some S2 =>
        have hdel : ∀ ci, del.contains ci = true → S1.nOrig ≤ ci := by
          intro ci hci
          rw [k4]
          exact hf.dels ci (by simpa using hci)
        obtain ⟨q1, q2⟩ := compact_some k1.inv k1.mle hdel k1.nle (by
          intro ci _ i l _ h0
          rw [k1.lim, lv_nil] at h0
          omega) hc
        exact ⟨⟨q1, q2.lim.trans k1.lim, by rw [q2.qhead, q2.trail]; exact k1.fix, q2.empty.trans k1.emp,
          by rw [q2.nOrig]; exact k1.mle, by rw [q2.nOrig]; exact q2.low k1.nle⟩, q2.n.trans (k2.trans g2)⟩

theorem inprocess_ok (probing : Bool) (h : Inv F m S) (he : S.empty = false) (h1 : m ≤ S.nOrig)
    (h2 : S.nOrig ≤ S.clauses.length) (h3 : S.lim = []) : RoundOK F m S.n (S.inprocess probing) := by
  have hcore : ∀ {S1 : Solver}, Inv F m S1 → S1.empty = false → m ≤ S1.nOrig → S1.nOrig ≤ S1.clauses.length →
      S1.n = S.n → RoundOK F m S.n (match S1.subsumeRound 600 with | .ok S2 => S2.vivifyRound 400 | r => r) := by
    intro S1 k1 k2 k3 k4 k5
    have hs := subsumeRound_ok 600 k1 k2 k3 k4
    rw [k5] at hs
    revert hs
    cases S1.subsumeRound 600 with
    | unsat S' => exact fun hs => hs
    | panic S' => exact fun hs => hs
    | ok S2 =>
      rintro ⟨g1, g2⟩
      have := (vivifyRound_ok 400 g1.inv g1.emp g1.mle g1.nle).round
      rw [g2] at this
      exact this
  unfold Solver.inprocess
  cases probing with
  | false => exact hcore h he h1 h2 rfl
  | true =>
    have hp := (probeRound_ok 256 h he h1 h2).round
    revert hp
    simp only [if_true]
    cases S.probeRound 256 with
    | unsat S' => exact fun hs => hs
    | panic S' => exact fun hs => hs
    | ok S1 =>
      rintro ⟨g1, g2⟩
      exact hcore g1.inv g1.emp g1.mle g1.nle g2

/-! ## The main loop -/

/-- A verdict is right, when there is one. -/
def RightP (F : List Clause) (n : Nat) : Verdict → Solver → Prop
  | .sat mdl, _ => mdl.length = n ∧ Models (asg mdl) F
  | .unsat, S => NoWorld (F ++ S.log)
  | _, _ => True

/-- The state between two calls, when deletions may have left stale reasons. -/
structure Between (F : List Clause) (m : Nat) (S : Solver) : Prop where
  inv : Inv F m S
  rest : S.lim = [] ∨ S.qhead = S.trail.length
  nle : S.nOrig ≤ S.clauses.length

/-- The result of `solve`. -/
structure AnswerP (F : List Clause) (m n : Nat) (r : Verdict × Solver) : Prop where
  right : RightP F n r.1 r.2
  core : Core F r.2
  n : r.2.n = n
  after : ∀ mdl, r.1 = .sat mdl → Between F m r.2 ∧ m ≤ r.2.nOrig ∧ r.2.empty = false
  nobudget : r.1 ≠ .budget
  held : r.1 = .unsat → Held F m r.2

theorem maybeReduce_some (h : Inv F m S) {drop : Nat → Bool} {S' : Solver} (h1 : m ≤ S.nOrig)
    (h2 : S.nOrig ≤ S.clauses.length) (e : S.maybeReduce drop = some S') :
    Inv F m S' ∧ m ≤ S'.nOrig ∧ S'.nOrig ≤ S'.clauses.length ∧ S'.n = S.n ∧ S'.empty = S.empty := by
  unfold Solver.maybeReduce at e
  split at e
  · cases hr : S.reduceDb drop with
    | none => rw [hr] at e; cases e
    | some S1 =>
      rw [hr] at e
      cases e
      obtain ⟨g1, g2⟩ := reduceDb_some h h1 h2 hr
      exact ⟨g1.setLimit _, by show m ≤ S1.nOrig; rw [g2.nOrig]; exact h1,
        by show S1.nOrig ≤ S1.clauses.length; rw [g2.nOrig]; exact g2.low h2, g2.n, g2.empty⟩
  · cases e
    exact ⟨h, h1, h2, rfl, rfl⟩

theorem solveLoop_ok (chs : List (Choice × Option Bool)) (h : Inv F m S) (he : S.empty = false) (h1 : m ≤ S.nOrig)
    (h2 : S.nOrig ≤ S.clauses.length) : AnswerP F m S.n (solveLoop chs S) := by
  induction chs generalizing S with
  | nil => exact ⟨trivial, h.core, rfl, (fun _ e => by cases e), (fun e => by cases e), (fun e => by cases e)⟩
  | cons ch chs ih =>
    obtain ⟨ch, ip⟩ := ch
    rw [solveLoop]
    have hp := propagate_ok h
    have hfix := fun S' => propagate_fix (S' := S') h
    revert hp hfix
    rcases S.propagate with ⟨r, S1⟩
    cases r with
    | panic => exact fun hp => hp.elim
    | conflict ci =>
      rintro ⟨hc, hf, hx⟩ _
      simp only
      have hn : S1.n = S.n := hx.n
      split
      · rename_i hl
        obtain ⟨c, g1, g2, _⟩ := hf.ex
        exact ⟨hc.core.refuted hl (List.mem_of_getElem? g1) g2, hc.core, hn, (fun _ e => by cases e), (fun e => by cases e), fun _ => ⟨hc.orig.orig, by rw [hx.nOrig]; exact h1⟩⟩
      · rename_i hl
        obtain ⟨S2, e, hL⟩ := learn_ok hc hl hf
        rw [e]
        simp only
        have hn2 : S2.n = S.n := hL.n.trans hn
        cases hm : S2.maybeReduce ch.drop with
        | none => exact ⟨trivial, hL.inv.core, hn2, (fun _ e => by cases e), (fun e => by cases e), (fun e => by cases e)⟩
        | some S3 =>
          simp only
          obtain ⟨i3, m3, l3, n3, e3⟩ := maybeReduce_some hL.inv (by rw [hL.nOrig, hx.nOrig]; exact h1)
            (by rw [hL.nOrig, hL.len, hx.nOrig, hx.len]; omega) hm
          have he3 : S3.empty = false := by rw [e3, hL.empty, hx.empty]; exact he
          have hn3 : S3.n = S.n := n3.trans hn2
          split
          · obtain ⟨b1, b2⟩ := backtrack_inv i3 0
            have be : (S3.backtrackTo 0).empty = false := by rw [b2.empty]; exact he3
            have bm : m ≤ (S3.backtrackTo 0).nOrig := by rw [b2.nOrig]; exact m3
            have bl : (S3.backtrackTo 0).nOrig ≤ (S3.backtrackTo 0).clauses.length := by
              rw [b2.nOrig, b2.clauses]; exact l3
            have bn : (S3.backtrackTo 0).n = S.n := b2.n.trans hn3
            cases ip with
            | none =>
              have := ih b1 be bm bl
              rw [bn] at this
              exact this
            | some probing =>
              have hr := inprocess_ok probing b1 be bm bl (by rw [b2.lim]; rfl)
              rw [bn] at hr
              revert hr
              simp only
              cases (S3.backtrackTo 0).inprocess probing with
              | ok S4 =>
                rintro ⟨g1, g2⟩
                have := ih g1.inv g1.emp g1.mle g1.nle
                rw [g2] at this
                exact this
              | unsat S4 =>
                rintro ⟨g1, g2, g3, g4⟩
                exact ⟨g1, g2, g3, (fun _ e => by cases e), (fun e => by cases e), fun _ => g4⟩
              | panic S4 =>
                rintro ⟨g1, g2⟩
                exact ⟨trivial, g1, g2, (fun _ e => by cases e), (fun e => by cases e), (fun e => by cases e)⟩
          · have := ih i3 he3 m3 l3
            rw [hn3] at this
            exact this
    | done =>
      rintro ⟨hi, hx⟩ hfix
      simp only
      have hq := hfix S1 rfl
      have hn : S1.n = S.n := hx.n
      have he1 : S1.empty = false := by rw [hx.empty]; exact he
      have hm1 : m ≤ S1.nOrig := by rw [hx.nOrig]; exact h1
      have hl1 : S1.nOrig ≤ S1.clauses.length := by rw [hx.nOrig, hx.len]; exact h2
      unfold Solver.pickBranch
      obtain ⟨hp, e1, e2, e3⟩ := pickLoop_ok (pop := ch.pop) hi (Nat.lt_succ_self _)
      revert e1 e3
      rcases pickLoop ch.pop (S1.heap.length + 1) S1 with ⟨o, S2⟩
      cases o with
      | none =>
        rintro rfl e3
        simp only
        have hinv : Inv F m { S1 with heap := hp } := hi.setHeap (fun v hv hn => absurd hn (e3 v hv)) e2
        obtain ⟨g1, g2, _⟩ := hinv.model_ok hq he1 e3
        exact ⟨⟨by rw [g1]; exact hn, g2⟩, hinv.core, hn, fun _ _ => ⟨⟨hinv, .inr hq, hl1⟩, hm1, he1⟩,
          (fun e => by cases e), (fun e => by cases e)⟩
      | some v =>
        rintro rfl ⟨k1, k2, k3⟩
        simp only
        have := ih (decide_ok (l := ⟨v, ch.phase v⟩) hi hq k1 k2 k3 e2) he1 hm1 hl1
        have hn' : (({ S1 with heap := hp } : Solver).decide ⟨v, ch.phase v⟩).n = S.n := hn
        rwa [hn'] at this

theorem solve_ok (chs : List (Choice × Option Bool)) (h : Between F m S) : AnswerP F m S.n (S.solve chs) := by
  have hinv : Inv F m { S with nOrig := S.clauses.length } := h.inv.setNOrig _
  unfold Solver.solve
  simp only
  by_cases he : S.empty = true
  · rw [if_pos he]
    exact ⟨h.inv.core.empU he, hinv.core, rfl, (fun _ e => by cases e), (fun e => by cases e), fun _ => ⟨hinv.orig.orig, hinv.orig.mle⟩⟩
  · rw [if_neg he]
    have he' : S.empty = false := by simpa using he
    have hp := propagate_ok hinv
    have hlim : ∀ ci S', Solver.propagate { S with nOrig := S.clauses.length } = (.conflict ci, S') → S'.lim = [] := by
      intro ci S' e
      rw [e] at hp
      rcases h.rest with hl | hl
      · exact hp.2.2.lim.trans hl
      · exfalso
        unfold Solver.propagate at e
        rw [propLoop] at e
        have : S.trail[S.qhead]? = none := by rw [hl]; simp
        simp only [this] at e
        cases e
    revert hp hlim
    rcases Solver.propagate { S with nOrig := S.clauses.length } with ⟨r, S1⟩
    cases r with
    | panic => exact fun hp => hp.elim
    | conflict ci =>
      rintro ⟨hc, hf, hx⟩ hlim
      obtain ⟨c, g1, g2, _⟩ := hf.ex
      exact ⟨hc.core.refuted (hlim ci S1 rfl) (List.mem_of_getElem? g1) g2, hc.core, hx.n, (fun _ e => by cases e),
        (fun e => by cases e), fun _ => ⟨hc.orig.orig, by rw [hx.nOrig]; exact hinv.orig.mle⟩⟩
    | done =>
      rintro ⟨hi, hx⟩ _
      have := solveLoop_ok chs hi (hx.empty.trans he') (by rw [hx.nOrig]; exact hinv.orig.mle)
        (by rw [hx.nOrig, hx.len]; exact Nat.le_refl _)
      have hn : S1.n = S.n := hx.n
      rwa [hn] at this

end

end Verif.Sat
