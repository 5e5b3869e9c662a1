import Verif.Solve.HornLemmas

/-!
# C26: the Horn solver

`Model cs σ`: whenever every body variable of a clause is true, the clause has a head and it is true (a goal clause
therefore needs a false body variable).  Variables are natural numbers; `InRange cs n` says that the instance names only
variables below `n`, which the constructor's caller must ensure (the solver ignores larger ones, see the last theorem).
-/

namespace Verif.Props
open Verif.Solve.Horn

/-- `satisfies` accepts a valuation exactly when it is a model, variables it does not list being false. -/
theorem C26_satisfies_iff (cs : List Clause) (a : List Bool) :
    satisfies cs a = true ↔ Model cs (fun v => a.getD v false) := by
  have hg : ∀ v, (decide (v < a.length) && a.getD v false) = a.getD v false := by
    intro v
    by_cases h : v < a.length
    · simp [h]
    · simp [h]
  unfold satisfies Model
  simp only [hg]
  rw [List.all_eq_true]
  constructor
  · intro h c hc hb
    have := h c hc
    have hb' : (c.body.all fun b => a.getD b false) = true := List.all_eq_true.2 hb
    cases hh : c.head with
    | none => rw [hh] at this; simp only [hb', Bool.not_true, Bool.false_eq_true] at this
    | some v =>
      rw [hh] at this
      simp only [hb', Bool.not_true, Bool.false_or] at this
      exact ⟨v, rfl, this⟩
  · intro h c hc
    have := h c hc
    cases hb : (c.body.all fun b => a.getD b false) with
    | true =>
      obtain ⟨v, e, hv⟩ := this (List.all_eq_true.1 hb)
      rw [e]
      simpa using hv
    | false => cases c.head <;> rfl

example : satisfies [⟨[], some 0⟩, ⟨[0], some 1⟩, ⟨[2], none⟩] [true, true, false] = true := by decide
example : satisfies [⟨[], some 0⟩, ⟨[0], some 1⟩, ⟨[2], none⟩] [true, false, false] = false := by decide

/-- When the solver answers with a valuation it lists every variable, is a model, and is the least one: a variable it sets
is set in every model. -/
theorem C26_sat_least (cs : List Clause) (n : Nat) (hR : InRange cs n) (a : List Bool) (h : solve cs n = .sat a) :
    a.length = n ∧ Model cs (fun v => a.getD v false) ∧ satisfies cs a = true ∧
      ∀ σ, Model cs σ → ∀ v, a.getD v false = true → σ v = true := by
  rcases loop_end hR (cs.length + 1) (init cs n) (init_inv cs n) (by have := init_measure cs n; omega) with
    ⟨s, hi, hr, e⟩ | ⟨s, ci, hi, hr, hh, e⟩
  · rw [solve, e] at h
    cases h
    obtain ⟨l, ht, hl⟩ := hi.trail
    have hv : ∀ v, ((List.range n).map s.val).getD v false = true → s.val v = true := by
      intro v hv
      by_cases hn : v < n
      · simpa [hn] using hv
      · simp [hn] at hv
    have hv' : ∀ v, v < n → s.val v = true → ((List.range n).map s.val).getD v false = true := by
      intro v hn hv
      simpa [hn] using hv
    have hm : Model cs (fun v => ((List.range n).map s.val).getD v false) := by
      intro c hc hb
      obtain ⟨i, hi', e'⟩ := List.mem_iff_getElem.1 hc
      have hat : at_ cs i = c := by rw [at_eq hi', e']
      have h0 : s.remaining i = 0 := by
        rw [hi.rem i hi', hat]
        exact open_zero.2 fun b hbm _ => hv b (hb b hbm)
      rcases hi.fired i hi' h0 with hm | ⟨w, hw, hval⟩
      · rw [hr] at hm; cases hm
      · rw [hat] at hw
        have hn := (hR c hc).2 w hw
        exact ⟨w, hw, hv' w hn (hval hn)⟩
    refine ⟨by simp, hm, (C26_satisfies_iff cs _).2 hm, ?_⟩
    intro σ hσ v hvv
    exact trail_forced ht hσ v ((hl v).1 (hv v hvv))
  · rw [solve, e] at h; cases h

example : InRange [⟨[], some 0⟩, ⟨[0], some 1⟩, ⟨[2], none⟩, ⟨[0, 2], some 3⟩] 4 ∧
    solve [⟨[], some 0⟩, ⟨[0], some 1⟩, ⟨[2], none⟩, ⟨[0, 2], some 3⟩] 4 = .sat [true, true, false, false] := by
  refine ⟨?_, by decide⟩
  intro c hc
  simp only [List.mem_cons, List.not_mem_nil, or_false] at hc
  rcases hc with rfl | rfl | rfl | rfl <;> simp

/-- A list of clauses accepted as a refutation is one: no assignment satisfies the instance.  No assumption is made on the
instance or on the list. -/
theorem C26_refutation_sound (cs : List Clause) (n : Nat) (r : List Nat) (h : isRefutation cs n r = true) :
    ∀ σ, ¬ Model cs σ := by
  intro σ hm
  unfold isRefutation at h
  cases hp : replay cs n r (n + 1) (fun _ => false) with
  | none => rw [hp] at h; cases h
  | some val =>
    rw [hp] at h
    simp only at h
    obtain ⟨ci, _, hg⟩ := List.any_eq_true.1 h
    have hs := replay_sound hm (n + 1) _ _ hp (by simp)
    unfold hitsGoal at hg
    cases hc : cs[ci]? with
    | none => rw [hc] at hg; cases hg
    | some c =>
      rw [hc] at hg
      simp only [Bool.and_eq_true, Option.isNone_iff_eq_none] at hg
      obtain ⟨v, e, _⟩ := hm c (List.mem_of_getElem? hc) (by
        intro b hb
        have := List.all_eq_true.1 hg.2 b hb
        simp only [Bool.and_eq_true] at this
        exact hs b this.2)
      rw [hg.1] at e; cases e

/-- When the solver answers "unsatisfiable", no assignment satisfies the instance and the derivation it returns is
accepted by the checker. -/
theorem C26_unsat_refuted (cs : List Clause) (n : Nat) (hR : InRange cs n) (r : List Nat)
    (h : solve cs n = .unsat r) : isRefutation cs n r = true ∧ ∀ σ, ¬ Model cs σ := by
  suffices hr : isRefutation cs n r = true from ⟨hr, C26_refutation_sound cs n r hr⟩
  rcases loop_end hR (cs.length + 1) (init cs n) (init_inv cs n) (by have := init_measure cs n; omega) with
    ⟨s, hi, hr, e⟩ | ⟨s, g, hi, hr, hh, e⟩
  · rw [solve, e] at h; cases h
  · rw [solve, e] at h
    cases h
    obtain ⟨l, ht, hl⟩ := hi.trail
    obtain ⟨hg, hg0⟩ := hi.ready g hr
    have hgb : ∀ b ∈ (at_ cs g).body, b ∈ l := by
      intro b hb
      rw [← hl]
      have := hi.rem g hg
      rw [hg0] at this
      exact open_zero.1 this.symm b hb ((hR _ (at_mem hg)).1 b hb)
    have hu := unlisted_cons (cs := cs) (seenC := []) hg (by simp)
    rw [unlisted_nil] at hu
    obtain ⟨d1, d2, S, d3, d4⟩ := derive_spec ht (2 * totalBody cs + 1) (at_ cs g).body.reverse [] [g] [g]
      (by rw [List.length_reverse]; omega)
      (fun v hv => hgb v (List.mem_reverse.1 hv)) (fun i hi => hi)
      (by
        intro i hi b hb
        rw [List.mem_singleton.1 hi] at hb
        exact .inr (List.mem_reverse.2 hb))
      (by simp) (by intro i hi; rw [List.mem_singleton.1 hi]; exact hg)
    show isRefutation cs n (derivation cs g s.forcedBy) = true
    have hD : derivation cs g s.forcedBy =
      deriveLoop cs s.forcedBy (2 * totalBody cs + 1) (at_ cs g).body.reverse [] [g] [g] := rfl
    rw [hD]
    obtain ⟨val, hp, hcl⟩ := replay_closed (n := n) d2 (n + 1) (fun _ => false) (by simp [falses])
    unfold isRefutation
    rw [hp]
    refine List.any_eq_true.2 ⟨g, d1 g (by simp), ?_⟩
    -- every variable the listed clauses need is derived, in the order in which it was forced
    have hS : ∀ {fb : Nat → Option Nat} {l : List Nat}, Trail cs fb l →
        (∀ v i, fb v = some i → s.forcedBy v = some i) → ∀ v ∈ l, v ∈ S → val v = true := by
      intro fb l' ht'
      induction ht' with
      | nil => intro _ v hv; cases hv
      | @cons fb l' w i htl hnot hil hhd hbd ih =>
        intro hsub v hv hvS
        have hw := hsub w i (by simp [upd])
        have hsub' : ∀ v j, fb v = some j → s.forcedBy v = some j := by
          intro v j hj
          by_cases ev : v = w
          · subst ev
            exfalso
            have hmem : ∀ {fb : Nat → Option Nat} {l : List Nat}, Trail cs fb l → ∀ x k, fb x = some k → x ∈ l := by
              intro fb l h
              induction h with
              | nil => intro x k h; cases h
              | @cons fb l y k' _ _ _ _ _ ih =>
                intro x k hx
                by_cases exy : x = y
                · subst exy; simp
                · simp only [upd, exy, if_false] at hx
                  exact List.mem_cons_of_mem _ (ih x k hx)
            exact hnot (hmem htl v j hj)
          · exact hsub v j (by simp [upd, ev, hj])
        rcases List.mem_cons.1 hv with e | hv
        · subst e
          obtain ⟨j, hj, hjD⟩ := d4 v hvS
          rw [hw] at hj
          cases hj
          refine hcl i hjD v hhd ?_ ((hR _ (at_mem hil)).2 v hhd)
          unfold bodyTrue
          rw [List.all_eq_true]
          intro b hb
          rw [Bool.and_eq_true]
          exact ⟨decide_eq_true ((hR _ (at_mem hil)).1 b hb), ih hsub' b (hbd b hb) (d3 i hjD b hb)⟩
        · exact ih hsub' v hv hvS
    unfold hitsGoal
    rw [getElem?_at hg]
    simp only [hh, Option.isNone_none, Bool.true_and]
    unfold bodyTrue
    rw [List.all_eq_true]
    intro b hb
    rw [Bool.and_eq_true]
    exact ⟨decide_eq_true ((hR _ (at_mem hg)).1 b hb),
      hS ht (fun _ _ h => h) b (hgb b hb) (d3 g (d1 g (by simp)) b hb)⟩

example : InRange [⟨[], some 0⟩, ⟨[0], some 1⟩, ⟨[], some 2⟩, ⟨[1, 0], none⟩] 3 ∧
    solve [⟨[], some 0⟩, ⟨[0], some 1⟩, ⟨[], some 2⟩, ⟨[1, 0], none⟩] 3 = .unsat [3, 0, 1] := by
  refine ⟨?_, by decide⟩
  intro c hc
  simp only [List.mem_cons, List.not_mem_nil, or_false] at hc
  rcases hc with rfl | rfl | rfl | rfl <;> simp

/-- So the solver decides satisfiability: it answers "satisfiable" exactly when there is a model. -/
theorem C26_decides (cs : List Clause) (n : Nat) (hR : InRange cs n) :
    (∃ a, solve cs n = .sat a) ↔ ∃ σ, Model cs σ := by
  constructor
  · rintro ⟨a, h⟩
    exact ⟨_, (C26_sat_least cs n hR a h).2.1⟩
  · rintro ⟨σ, h⟩
    cases e : solve cs n with
    | sat a => exact ⟨a, rfl⟩
    | unsat r => exact absurd h ((C26_unsat_refuted cs n hR r e).2 σ)

/-- The assumption on the variables is needed: a body variable at or above the declared number is treated as if it were
true, so a satisfiable instance is reported unsatisfiable, with a derivation its own checker rejects. -/
theorem C26_out_of_range_fails : solve [⟨[5], none⟩] 2 = .unsat [0] ∧ isRefutation [⟨[5], none⟩] 2 [0] = false ∧
    Model [⟨[5], none⟩] (fun _ => false) := by
  refine ⟨by decide, by decide, ?_⟩
  intro c hc hb
  simp only [List.mem_cons, List.not_mem_nil, or_false] at hc
  subst hc
  exact absurd (hb 5 (by simp)) (by simp)

end Verif.Props
