import Verif.Proof.UnifyLemmas
/-!
# C86 – Term unification returns a most general unifier
-/
namespace Verif.Props
open Verif.Proof

/-- **C86** (termination): unification ends on every pair of terms, with the same answer at every
sufficient depth. -/
theorem C86_terminates (t1 t2 : Term) : ∃ r n, ∀ m, n ≤ m → unifyTerms m t1 t2 = some r := by
  obtain ⟨V, r, ⟨n, h⟩, _⟩ := unifyTerms_claim t1 t2
  exact ⟨r, n, h⟩

/-- **C86** (the answer is a unifier): applying the returned substitution ends on every term, maps the
two terms to the same one, and applying it again changes nothing. -/
theorem C86_unifier (n : Nat) (t1 t2 : Term) (s : Subst) (h : unifyTerms n t1 t2 = some (.ok s)) :
    (∃ m r, applyTerm m s t1 = some r ∧ applyTerm m s t2 = some r) ∧
    (∀ u, ∃ m r, applyTerm m s u = some r ∧ applyTerm m s r = some r) := by
  obtain ⟨V, σ, st, hd, _, _⟩ := unifyTerms_good h
  refine ⟨?_, fun u => ?_⟩
  · obtain ⟨m1, h1⟩ := st.inv.ends t1
    obtain ⟨m2, h2⟩ := st.inv.ends t2
    refine ⟨max m1 m2, res σ t1, applyTerm_mono h1 (Nat.le_max_left _ _), ?_⟩
    rw [show res σ t1 = res σ t2 from hd]
    exact applyTerm_mono h2 (Nat.le_max_right _ _)
  · obtain ⟨m1, h1⟩ := st.inv.ends u
    obtain ⟨m2, h2⟩ := st.inv.ends (res σ u)
    rw [st.inv.res_res] at h2
    exact ⟨max m1 m2, res σ u, applyTerm_mono h1 (Nat.le_max_left _ _),
      applyTerm_mono h2 (Nat.le_max_right _ _)⟩

/-- **C86** (most general): every instantiation `θ` that makes the two terms equal factors through the
answer: substituting first and instantiating then is the same as instantiating. -/
theorem C86_most_general (n : Nat) (t1 t2 : Term) (s : Subst) (h : unifyTerms n t1 t2 = some (.ok s))
    (θ : List Char → Term) (hθ : inst θ t1 = inst θ t2) (m : Nat) (u r : Term)
    (hu : applyTerm m s u = some r) : inst θ r = inst θ u := by
  obtain ⟨V, σ, st, _, hm, _⟩ := unifyTerms_good h
  have : r = res σ u := Ev.unique ⟨m, hu⟩ (st.inv.ends u)
  rw [this]
  exact hm θ (Resp.empty θ) hθ u

/-- **C86** (completeness), for terms in which no name is used both as a free and as a bound variable:
if some instantiation makes the terms equal, unification succeeds. -/
theorem C86_complete_partial (t1 t2 : Term) (K : List Char → Bool) (h1 : WK K t1) (h2 : WK K t2)
    (θ : List Char → Term) (hθ : inst θ t1 = inst θ t2) :
    ∃ s n, ∀ m, n ≤ m → unifyTerms m t1 t2 = some (.ok s) := by
  obtain ⟨V, r, ⟨n, hn⟩, hg⟩ := unifyTerms_claim t1 t2
  cases r with
  | ok s => exact ⟨s, n, hn⟩
  | error e =>
    exact absurd hθ (hg K θ (fun v t h => by simp [Subst.empty] at h) ⟨h1, h2⟩ (Resp.empty θ))

/-- `f(x, g(y))` and `f(h(y), z)`: unified by `x ↦ h(y)`, `z ↦ g(y)`. -/
example :
    let x := ['x']; let y := ['y']; let z := ['z']
    let t1 := Term.fn ['f'] [.var x, .fn ['g'] [.var y]]
    let t2 := Term.fn ['f'] [.fn ['h'] [.var y], .var z]
    (∃ s, unifyTerms 6 t1 t2 = some (.ok s) ∧ s x = some (.fn ['h'] [.var y]) ∧
      s z = some (.fn ['g'] [.var y]) ∧ s y = none) ∧
    (∃ K, WK K t1 ∧ WK K t2) ∧
    inst (fun v => if v = x then .fn ['h'] [.const ['c']] else if v = z then .fn ['g'] [.const ['c']]
      else .const ['c']) t1 =
    inst (fun v => if v = x then .fn ['h'] [.const ['c']] else if v = z then .fn ['g'] [.const ['c']]
      else .const ['c']) t2 := by
  refine ⟨⟨_, rfl, rfl, rfl, rfl⟩, ⟨fun _ => true, ?_, ?_⟩, ?_⟩
  · simp [WK, WKs]
  · simp [WK, WKs]
  · simp [inst, insts]

/-- **C86** is false when a name is both a free and a bound variable: `x` and the bound `x` have the
common instance `c` (the substitution `x ↦ c` replaces both), but the occurs check rejects them. -/
theorem C86_kind_clash_fails : ∃ (t1 t2 : Term) (s : Subst),
    applyTerm 2 s t1 = applyTerm 2 s t2 ∧ (applyTerm 2 s t1).isSome ∧
    ∀ n, unifyTerms (n + 2) t1 t2 = some (.error .occursCheck) :=
  ⟨.var ['x'], .bound ['x'], Subst.insert .empty ['x'] (.const ['c']), rfl, rfl, fun _ => rfl⟩

/-- **C86** (composition), for substitutions whose values mention no name mapped by either: the
composition exists, and applying it is applying `s1` and then `s2`. -/
theorem C86_compose_partial (s1 s2 : Subst)
    (h1 : ∀ v t, s1 v = some t → ¬ Mentions (fun w => s1 w ≠ none) t)
    (h2 : ∀ v t, s2 v = some t → ¬ Mentions (fun w => s1 w ≠ none ∨ s2 w ≠ none) t) :
    ∃ s : Subst, (∀ v, ∃ n, composeSubst n s1 s2 v = some (s v)) ∧
      ∀ u, ∃ n a b, applyTerm n s1 u = some a ∧ applyTerm n s2 a = some b ∧ applyTerm n s u = some b := by
  have r1 : ∀ v t, s1 v = some t → ∀ w, occurs w t = true → s1 w = none := by
    intro v t hv w hw
    have := h1 v t hv
    rw [mentions_iff] at this
    by_contra hne
    exact this ⟨w, hne, hw⟩
  have r2 : ∀ v t, s2 v = some t → ∀ w, occurs w t = true → s1 w = none ∧ s2 w = none := by
    intro v t hv w hw
    have := h2 v t hv
    rw [mentions_iff] at this
    constructor
    · by_contra hne; exact this ⟨w, .inl hne, hw⟩
    · by_contra hne; exact this ⟨w, .inr hne, hw⟩
  have e2 := Ev.resolved (s := s2) fun v t hv w hw => (r2 v t hv w hw).2
  let s : Subst := fun v => match s1 v with
    | some t => some (res s2 t)
    | none => s2 v
  have hres : ∀ u, res s u = res s2 (res s1 u) := by
    intro u
    induction u using Term.ind with
    | hc c => rfl
    | hv v =>
      simp only [res, s]
      cases h : s1 v with
      | none => simp [res]
      | some t => simp
    | hb v =>
      simp only [res, s]
      cases h : s1 v with
      | none => simp [res]
      | some t => simp
    | hf f as ih =>
      simp only [res, ress_eq, List.map_map]
      congr 1
      exact List.map_congr_left fun a ha => ih a ha
    | hg as ih =>
      simp only [res, ress_eq, List.map_map]
      congr 1
      exact List.map_congr_left fun a ha => ih a ha
  have rs : ∀ v t, s v = some t → ∀ w, occurs w t = true → s w = none := by
    intro v t hv w hw
    simp only [s] at hv ⊢
    cases h : s1 v with
    | none =>
      simp only [h] at hv
      obtain ⟨a, b⟩ := r2 v t hv w hw
      simp [a, b]
    | some t' =>
      simp only [h, Option.some.injEq] at hv
      subst hv
      rcases occurs_res t' hw with ⟨a, b⟩ | ⟨z, q, a, _, b⟩
      · simp [r1 v t' h w a, b]
      · obtain ⟨c, d⟩ := r2 z q a w b
        simp [c, d]
  refine ⟨s, fun v => ?_, fun u => ?_⟩
  · unfold composeSubst
    simp only [s]
    cases h : s1 v with
    | none => exact ⟨0, rfl⟩
    | some t =>
      obtain ⟨n, hn⟩ := e2 t
      exact ⟨n, by simp [hn]⟩
  · obtain ⟨n1, a1⟩ := Ev.resolved r1 u
    obtain ⟨n2, a2⟩ := e2 (res s1 u)
    obtain ⟨n3, a3⟩ := Ev.resolved rs u
    rw [hres] at a3
    exact ⟨max n1 (max n2 n3), _, _, applyTerm_mono a1 (by omega), applyTerm_mono a2 (by omega),
      applyTerm_mono a3 (by omega)⟩

example :
    let s1 := Subst.insert .empty ['x'] (.fn ['f'] [.var ['y']])
    let s2 := Subst.insert .empty ['y'] (.const ['a'])
    (∀ v t, s1 v = some t → ¬ Mentions (fun w => s1 w ≠ none) t) ∧
    (∀ v t, s2 v = some t → ¬ Mentions (fun w => s1 w ≠ none ∨ s2 w ≠ none) t) := by
  constructor
  · intro v t h
    simp only [Subst.insert, Subst.empty] at h ⊢
    split at h
    · simp only [Option.some.injEq] at h
      subst h
      simp [Mentions, MentionsSome]
    · cases h
  · intro v t h
    simp only [Subst.insert, Subst.empty] at h ⊢
    split at h
    · simp only [Option.some.injEq] at h
      subst h
      simp [Mentions]
    · cases h

/-- The composition of `x ↦ y` and `y ↦ x` maps `x` to itself. -/
theorem loop_never (s : Subst) (v : List Char) (h : s v = some (.var v)) :
    ∀ n, applyTerm n s (.var v) = none
  | 0 => rfl
  | n + 1 => by unfold applyTerm; rw [h]; exact loop_never s v h n

/-- **C86** (composition) is false in general: applying `x ↦ y` and then `y ↦ x` to `x` gives `x`, but
the composition maps `x` to `x`, and applying it never ends. -/
theorem C86_compose_fails : ∃ (s1 s2 s : Subst),
    (∀ v, composeSubst 2 s1 s2 v = some (s v)) ∧
    (∃ a b, applyTerm 2 s1 (.var ['x']) = some a ∧ applyTerm 2 s2 a = some b) ∧
    ∀ n, applyTerm n s (.var ['x']) = none := by
  refine ⟨Subst.insert .empty ['x'] (.var ['y']), Subst.insert .empty ['y'] (.var ['x']),
    fun v => if v = ['x'] then some (.var ['x']) else if v = ['y'] then some (.var ['x']) else none,
    ?_, ⟨_, _, rfl, rfl⟩, ?_⟩
  · intro v
    by_cases hx : v = ['x']
    · subst hx; rfl
    · simp [composeSubst, Subst.insert, Subst.empty, hx]
  · exact loop_never _ _ (by simp)

end Verif.Props
