import Verif.Proof.CardLemmas

/-!
# C29: cardinality encodings

`Expr.eval v e` (Verif.Proof.CnfLemmas) is the truth of a formula when `v` gives the truth of its atoms; `IsAux aux e` says that
`e` is one of the atoms `{aux}_{i}_{j}`; `Fresh aux vars` says that none of them occurs in the constrained formulas.
An encoding is exact when a valuation can be changed on the auxiliary atoms alone so as to satisfy it exactly if the count
is right.
-/

namespace Verif.Props
open Verif.Proof Verif.Proof.Card

/-- `at_most`: satisfiable over the auxiliary atoms exactly when at most `k` of the formulas are true. -/
theorem C29_at_most (vars : List Expr) (k : Nat) (aux : List Char) (v : Expr → Bool) (hf : Fresh aux vars) :
    (∃ w : Expr → Bool, (∀ e, ¬ IsAux aux e → w e = v e) ∧ (atMost vars k aux).eval w = true) ↔
      vars.countP (Expr.eval v) ≤ k := by
  constructor
  · rintro ⟨w, hw, h⟩
    rw [← cnt_fresh hw hf]; exact atMost_sound h
  · intro h
    exact ⟨_, fun e he => counting_other v vars aux he, atMost_complete hf h⟩

/-- `at_least`: satisfiable over the auxiliary atoms exactly when at least `k` of the formulas are true. -/
theorem C29_at_least (vars : List Expr) (k : Nat) (aux : List Char) (v : Expr → Bool) (hf : Fresh aux vars) :
    (∃ w : Expr → Bool, (∀ e, ¬ IsAux aux e → w e = v e) ∧ (atLeast vars k aux).eval w = true) ↔
      k ≤ vars.countP (Expr.eval v) := by
  constructor
  · rintro ⟨w, hw, h⟩
    rw [← cnt_fresh hw hf]; exact atLeast_sound h
  · intro h
    exact ⟨_, fun e he => counting_other v _ aux he, atLeast_complete hf h⟩

private theorem ge_le (aux : List Char) {a : Expr} (h : IsAux (aux ++ ['_', 'g', 'e']) a) :
    ¬ IsAux (aux ++ ['_', 'l', 'e']) a := by
  rintro ⟨i, j, h2⟩
  obtain ⟨i', j', h1⟩ := h
  rw [h1] at h2
  simp only [s, Expr.atom.injEq] at h2
  have := List.append_cancel_left (auxName_inj h2).1
  revert this; decide

/-- `exactly`: satisfiable over its auxiliary atoms exactly when exactly `k` of the formulas are true. -/
theorem C29_exactly (vars : List Expr) (k : Nat) (aux : List Char) (v : Expr → Bool)
    (hg : Fresh (aux ++ ['_', 'g', 'e']) vars) (hl : Fresh (aux ++ ['_', 'l', 'e']) vars) :
    (∃ w : Expr → Bool,
      (∀ e, ¬ IsAux (aux ++ ['_', 'g', 'e']) e → ¬ IsAux (aux ++ ['_', 'l', 'e']) e → w e = v e) ∧
      (exactly vars k aux).eval w = true) ↔ vars.countP (Expr.eval v) = k := by
  constructor
  · rintro ⟨w, hw, h⟩
    have hc : vars.countP (Expr.eval w) = vars.countP (Expr.eval v) :=
      List.countP_congr fun x hx => by
        rw [eval_congr (e := x) fun a ha => hw a (fun hi => hg x hx a hi ha) (fun hi => hl x hx a hi ha)]
    rw [exactly, Expr.eval, Bool.and_eq_true] at h
    have h1 := atLeast_sound h.1
    have h2 := atMost_sound h.2
    omega
  · intro h
    let v1 := countingNot v vars (aux ++ ['_', 'g', 'e'])
    have hv1 : ∀ e, ¬ IsAux (aux ++ ['_', 'g', 'e']) e → v1 e = v e := fun e he => counting_other v _ _ he
    have hv2 : ∀ e, ¬ IsAux (aux ++ ['_', 'l', 'e']) e → counting v1 vars (aux ++ ['_', 'l', 'e']) e = v1 e :=
      fun e he => counting_other v1 _ _ he
    refine ⟨counting v1 vars (aux ++ ['_', 'l', 'e']), ?_, ?_⟩
    · intro e h1 h2
      rw [hv2 e h2, hv1 e h1]
    · rw [exactly, Expr.eval, Bool.and_eq_true]
      refine ⟨?_, ?_⟩
      · rw [eval_congr (w := v1)]
        · exact atLeast_complete hg (by omega)
        · intro a ha
          refine hv2 a fun hi => ?_
          rcases mentions_atLeast ha with ht | ht | ht | ⟨x, hx, ht⟩
          · obtain ⟨i, j, hi⟩ := hi
            rw [ht] at hi
            simp only [s, Expr.atom.injEq] at hi
            exact auxName_ne_true _ _ _ hi.symm
          · obtain ⟨i, j, hi⟩ := hi
            rw [ht] at hi
            simp only [s, Expr.atom.injEq] at hi
            exact auxName_ne_false _ _ _ hi.symm
          · exact ge_le aux ht hi
          · exact hl x hx a hi ht
      · refine atMost_complete hl ?_
        rw [cnt_fresh hv1 hg]; omega

/-- Soundness needs no freshness: whatever else shares the auxiliary atoms, a model has the right count. -/
theorem C29_sound (vars : List Expr) (k : Nat) (aux : List Char) (w : Expr → Bool) :
    ((atMost vars k aux).eval w = true → vars.countP (Expr.eval w) ≤ k) ∧
    ((atLeast vars k aux).eval w = true → k ≤ vars.countP (Expr.eval w)) ∧
    ((exactly vars k aux).eval w = true → vars.countP (Expr.eval w) = k) := by
  refine ⟨atMost_sound, atLeast_sound, fun h => ?_⟩
  rw [exactly, Expr.eval, Bool.and_eq_true] at h
  have h1 := atLeast_sound h.1
  have h2 := atMost_sound h.2
  omega

/-- Constraints under different prefixes share no auxiliary atom, and no auxiliary atom is reserved. -/
theorem C29_prefixes (aux aux' : List Char) (h : aux ≠ aux') (e : Expr) :
    ¬ (IsAux aux e ∧ IsAux aux' e) := by
  rintro ⟨⟨i, j, h1⟩, ⟨i', j', h2⟩⟩
  rw [h1] at h2
  simp only [s, Expr.atom.injEq] at h2
  exact h (auxName_inj h2).1

/-- Three atoms `x`, `y`, `z` under the prefix `c`. -/
def cardSample : List Expr := [.atom ['x'], .atom ['y'], .atom ['z']]

/-- The sample is fresh for any prefix: its names have no underscore. -/
theorem cardSample_fresh (aux : List Char) : Fresh aux cardSample := by
  intro x hx a ⟨i, j, ha⟩ hm
  subst ha
  have hu : '_' ∈ auxName aux i j := by simp [auxName]
  simp only [cardSample, List.mem_cons, List.not_mem_nil, or_false] at hx
  rcases hx with rfl | rfl | rfl <;>
  · have : auxName aux i j = _ := (by simpa only [Mentions, s, Expr.atom.injEq] using hm.symm)
    rw [this] at hu
    revert hu; decide

example : Fresh ['c'] cardSample ∧ Fresh (['c'] ++ ['_', 'g', 'e']) cardSample ∧
    cardSample.countP (Expr.eval fun
      | .atom n => n == ['x'] || n == ['z']
      | _ => false) = 2 ∧
    (atMost cardSample 1 ['c']).eval (fun _ => true) = false :=
  ⟨cardSample_fresh _, cardSample_fresh _, by decide +kernel, by decide +kernel⟩

end Verif.Props
