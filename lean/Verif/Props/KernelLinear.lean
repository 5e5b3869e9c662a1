import Verif.Kernel.OmegaGoals
import Mathlib.Data.List.Dedup
/-!
# C73, C74: the linear-arithmetic procedures of the kernel

The specification (`Denotes`, `Linear`, `Rel.Holds`, `Meaning`) is at the end of
`Verif/Kernel/Syntax.lean`.
-/
namespace Verif.Props
open Verif.Kernel

/-- The value of `c₀ + Σ cᵢ·xᵢ` for rational `xᵢ`. -/
def valueQ (τ : Int → ℚ) (e : LExpr ℚ) : ℚ :=
  e.const + (e.coeffs.map (fun p => p.2 * τ p.1)).sum

/-- The value of `c₀ + Σ cᵢ·xᵢ` with integer coefficients, for rational `xᵢ`. -/
def valueZ (τ : Int → ℚ) (e : LExpr Int) : ℚ :=
  e.const + (e.coeffs.map (fun p => (p.2 : ℚ) * τ p.1)).sum

/-- `e < 0` if strict, `e ≤ 0` if not. -/
def Below (strict : Bool) (x : ℚ) : Prop := (strict = true → x < 0) ∧ (strict = false → x ≤ 0)

theorem below_iff (s : Bool) (x : ℚ) : Below s x ↔ lessBy s x 0 := by
  cases s <;> simp [Below, lessBy]

theorem holdsQ_iff (τ : Int → ℚ) (c : Constr ℚ) :
    Below c.strict (valueQ τ c.expr) ↔ c.Holds (RingHom.id ℚ) τ := by
  rw [below_iff]; rfl

theorem holdsZ_iff (τ : Int → ℚ) (c : Constr Int) :
    Below c.strict (valueZ τ c.expr) ↔ c.Holds zq τ := by
  rw [below_iff]; rfl

/-- The expression is stored as the code builds it: variables in ascending order and no zero
coefficient. -/
def Canonical {R : Type} [Zero R] (e : LExpr R) : Prop :=
  (e.coeffs.map Prod.fst).Pairwise (· < ·) ∧ ∀ p ∈ e.coeffs, p.2 ≠ 0

theorem canonical_iff {R : Type} [CommRing R] [DecidableEq R] (e : LExpr R) :
    Canonical e ↔ e.Clean := by
  unfold Canonical LExpr.Clean BMap.Sorted
  rw [List.pairwise_map]
  simp [TOrd.lt]

/-! ## C73: `lia` -/

/-- Fourier–Motzkin elimination answers "unsatisfiable" exactly when no rational assignment satisfies
all constraints. -/
theorem C73_elimination {cs : List (Constr ℚ)} (h : ∀ c ∈ cs, Canonical c.expr) :
    fourierMotzkinUnsat cs = true ↔ ¬ ∃ τ : Int → ℚ, ∀ c ∈ cs, Below c.strict (valueQ τ c.expr) := by
  simp only [holdsQ_iff]
  exact fourierMotzkin_iff (fun c hc => (canonical_iff _).1 (h c hc))

/-- An accepted goal is a comparison that holds for all rational values of its variables, and so for
all integer values.  (The variables must be de Bruijn indices: `C73_index_fails`.) -/
theorem C73_sound_partial {goal : Term} (hd : DeBruijn goal) (h : liaAccepts goal = true) :
    ∃ s r a b, RelName s r ∧ goal = sBin s a b ∧
      (∀ (ρ : Int → ℚ) (σ : String → ℚ), ∃ x y, Denotes ρ σ a x ∧ Denotes ρ σ b y ∧ r.Holds x y) ∧
      (∀ (ρ : Int → ℤ) (σ : String → ℤ), ∃ x y, Denotes ρ σ a x ∧ Denotes ρ σ b y ∧ r.Holds x y) := by
  obtain ⟨s, r, a, b, x, y, v, v', hs, rfl, ha, hb, hall⟩ := liaAccepts_iff.1 h
  have ova := ha.ok Interner.new_ok
  have ovb := hb.ok ova.1
  have hq : ∀ (ρ : Int → ℚ) (σ : String → ℚ), ∃ x y,
      Denotes ρ σ a x ∧ Denotes ρ σ b y ∧ r.Holds x y := by
    intro ρ σ
    obtain ⟨τ, hτ⟩ := exists_index ρ σ ovb.1
    exact ⟨_, _, ha.denotes (linear_interp (RingHom.id ℚ)) Interner.new_ok hd.bin.1 τ ρ σ
      (hτ.mono ovb.2), hb.denotes (linear_interp (RingHom.id ℚ)) ova.1 hd.bin.2 τ ρ σ hτ, hall τ⟩
  refine ⟨s, r, a, b, relOf_some.1 hs, rfl, hq, ?_⟩
  intro ρ σ
  have cast : ∀ {t : Term} {x : ℚ},
      Denotes (fun i => ((ρ i : ℤ) : ℚ)) (fun s => ((σ s : ℤ) : ℚ)) t x →
      ∃ n : ℤ, x = n ∧ Denotes ρ σ t n := by
    intro t x h
    induction h with
    | lit n => exact ⟨n, rfl, .lit n⟩
    | var i => exact ⟨_, rfl, .var i⟩
    | name s => exact ⟨_, rfl, .name s⟩
    | add _ _ ih1 ih2 =>
      obtain ⟨m, rfl, h1⟩ := ih1
      obtain ⟨n, rfl, h2⟩ := ih2
      exact ⟨m + n, by push_cast; rfl, .add h1 h2⟩
    | sub _ _ ih1 ih2 =>
      obtain ⟨m, rfl, h1⟩ := ih1
      obtain ⟨n, rfl, h2⟩ := ih2
      exact ⟨m - n, by push_cast; rfl, .sub h1 h2⟩
    | mul _ _ ih1 ih2 =>
      obtain ⟨m, rfl, h1⟩ := ih1
      obtain ⟨n, rfl, h2⟩ := ih2
      exact ⟨m * n, by push_cast; rfl, .mul h1 h2⟩
  obtain ⟨x', y', hx', hy', hr⟩ := hq (fun i => ((ρ i : ℤ) : ℚ)) (fun s => ((σ s : ℤ) : ℚ))
  obtain ⟨m, rfl, hm⟩ := cast hx'
  obtain ⟨n, rfl, hn⟩ := cast hy'
  refine ⟨m, n, hm, hn, ?_⟩
  cases r <;> simp only [Rel.Holds] at hr ⊢ <;> exact_mod_cast hr

/-- A comparison of linear terms that holds for all rational values is accepted. -/
theorem C73_complete {s : String} {r : Rel} {a b : Term} (hs : RelName s r)
    (hla : Linear a) (hlb : Linear b) (hda : DeBruijn a) (hdb : DeBruijn b)
    (h : ∀ (ρ : Int → ℚ) (σ : String → ℚ) (x y : ℚ), Denotes ρ σ a x → Denotes ρ σ b y → r.Holds x y) :
    liaAccepts (sBin s a b) = true := by
  obtain ⟨x, v, ha⟩ := linear_reads ℚ hla Interner.new
  obtain ⟨y, v', hb⟩ := linear_reads ℚ hlb v
  have ova := ha.ok Interner.new_ok
  have ovb := hb.ok ova.1
  refine liaAccepts_iff.2 ⟨s, r, a, b, x, y, v, v', relOf_some.2 hs, rfl, ha, hb, fun τ => ?_⟩
  obtain ⟨ρ, σ, hτ⟩ := exists_values τ ovb.1
  exact h ρ σ _ _ (ha.denotes (linear_interp (RingHom.id ℚ)) Interner.new_ok hda τ ρ σ (hτ.mono ovb.2))
    (hb.denotes (linear_interp (RingHom.id ℚ)) ova.1 hdb τ ρ σ hτ)

/-- **Disagreement.**  `SVar (-1000000) ≤ SName "a"` is accepted. -/
theorem C73_index_fails :
    liaAccepts (sBin "Le" (sVar (-1000000)) (sName "a")) = true ∧
      ∃ (ρ : Int → ℚ) (σ : String → ℚ) (x y : ℚ),
        Denotes ρ σ (sVar (-1000000)) x ∧ Denotes ρ σ (sName "a") y ∧ ¬ Rel.le.Holds x y := by
  refine ⟨?_, fun _ => 1, fun _ => 0, 1, 0, .var _, .name _, by simp [Rel.Holds]⟩
  decide +kernel

/-! ## C74: `omega` -/

/-- An accepted goal is true for all integer values of its variables: under every meaning of goals that
reads comparisons as comparisons of values and implications as implications, whatever it makes of the
hypotheses `omega` cannot read.  The order of the hash set of variables is arbitrary. -/
theorem C74_sound_partial {order : List Int → List Int} {goal : Term} (hd : DeBruijn goal)
    (h : omegaAccepts order goal = true) (ρ : Int → ℤ) (σ : String → ℤ) {T : Term → Prop}
    (hT : Meaning ρ σ T) : T goal :=
  omegaAccepts_sound hd h ρ σ hT

/-- A system found unsatisfiable has no rational, hence no integer, solution. -/
theorem C74_unsat_sound {order : List Int → List Int} {cs : List (Constr Int)}
    (hc : ∀ c ∈ cs, Canonical c.expr) (h : omegaUnsat order cs = true) :
    ¬ ∃ τ : Int → ℚ, ∀ c ∈ cs, Below c.strict (valueZ τ c.expr) := by
  rintro ⟨τ, hτ⟩
  exact omegaUnsat_sound (fun c hm => (canonical_iff _).1 (hc c hm)) h τ
    (fun c hm => (holdsZ_iff τ c).1 (hτ c hm))

/-- On systems of `≤`, which are all that goals give rise to, the verdict is exactly "no rational
solution". -/
theorem C74_exact {order : List Int → List Int} (ho : HashOrder order) {cs : List (Constr Int)}
    (hc : ∀ c ∈ cs, Canonical c.expr) (hs : ∀ c ∈ cs, c.strict = false) :
    omegaUnsat order cs = true ↔ ¬ ∃ τ : Int → ℚ, ∀ c ∈ cs, valueZ τ c.expr ≤ 0 := by
  rw [omegaUnsat_iff ho (fun c hm => (canonical_iff _).1 (hc c hm)) hs]
  have : ∀ τ : Int → ℚ, (∀ c ∈ cs, valueZ τ c.expr ≤ 0) ↔ ∀ c ∈ cs, c.Holds zq τ := by
    intro τ
    refine forall₂_congr (fun c hm => ?_)
    rw [← holdsZ_iff, hs c hm]; simp [Below]
  simp only [this]

/-- The verdict on such a system does not depend on the order in which the hash set is walked. -/
theorem C74_order {o1 o2 : List Int → List Int} (h1 : HashOrder o1) (h2 : HashOrder o2)
    {cs : List (Constr Int)} (hc : ∀ c ∈ cs, Canonical c.expr) (hs : ∀ c ∈ cs, c.strict = false) :
    omegaUnsat o1 cs = omegaUnsat o2 cs := by
  rw [Bool.eq_iff_iff, C74_exact h1 hc hs, C74_exact h2 hc hs]

/-- `2x ≥ 1` and `2x ≤ 1`. -/
def halfSystem : List (Constr Int) := [⟨⟨1, [(0, -2)]⟩, false⟩, ⟨⟨-1, [(0, 2)]⟩, false⟩]

/-- **Disagreement.**  The documentation promises that `2x = 1` is recognised as unsatisfiable over the
integers.  It is not: no integer solves the system, and the verdict is "may be satisfiable" for every
order. -/
theorem C74_parity_fails :
    (∀ τ : Int → ℤ, ¬ ∀ c ∈ halfSystem, valueZ (fun i => ((τ i : ℤ) : ℚ)) c.expr ≤ 0) ∧
      ∀ order, HashOrder order → omegaUnsat order halfSystem = false := by
  constructor
  · intro τ h
    have h1 := h _ (List.mem_cons_self ..)
    have h2 := h _ (List.mem_cons_of_mem _ (List.mem_cons_self ..))
    simp only [valueZ, List.map_cons, List.map_nil, List.sum_cons, List.sum_nil] at h1 h2
    have h1' : 1 + (-2 * τ 0 + 0) ≤ 0 := by exact_mod_cast h1
    have h2' : -1 + (2 * τ 0 + 0) ≤ 0 := by exact_mod_cast h2
    omega
  · intro order ho
    rw [Bool.eq_false_iff, Ne, C74_exact ho]
    · rw [not_not]
      refine ⟨fun _ => 1 / 2, ?_⟩
      intro c hc
      rcases List.mem_cons.1 hc with rfl | hc
      · simp [valueZ]
      · rw [List.mem_singleton.1 hc]; simp [valueZ]
    · intro c hc
      rcases List.mem_cons.1 hc with rfl | hc
      · simp [Canonical]
      · rw [List.mem_singleton.1 hc]; simp [Canonical]
    · intro c hc
      rcases List.mem_cons.1 hc with rfl | hc
      · rfl
      · rw [List.mem_singleton.1 hc]

/-- `1 ≤ 2x → 2 ≤ 2x`. -/
def evenGoal : Term :=
  sBin "Implies" (sBin "Le" (sLit 1) (sBin "mul" (sLit 2) (sVar 0)))
    (sBin "Le" (sLit 2) (sBin "mul" (sLit 2) (sVar 0)))

/-- **Disagreement.**  "Exact integer semantics" is promised for goals.  This goal is true for all
integers and is not accepted, for any order. -/
theorem C74_even_fails :
    (∀ (ρ : Int → ℤ) (σ : String → ℤ) (T : Term → Prop), Meaning ρ σ T → T evenGoal) ∧
      ∀ order, HashOrder order → omegaAccepts order evenGoal = false := by
  constructor
  · intro ρ σ T hT
    rw [evenGoal, hT.implication _ _ _ (Or.inl rfl),
      hT.comparison "Le" .le _ _ _ _ .Le (.lit 1) (.mul (.lit 2) (.var 0)),
      hT.comparison "Le" .le _ _ _ _ .Le (.lit 2) (.mul (.lit 2) (.var 0))]
    intro h
    have h' : 1 ≤ (2 : ℤ) * ρ 0 := h
    show 2 ≤ (2 : ℤ) * ρ 0
    omega
  · intro order ho
    have e : omegaAccepts order evenGoal = omegaUnsat order halfSystem := rfl
    rw [e]
    exact C74_parity_fails.2 order ho

/-- **Disagreement.**  `SVar (-1000000) ≤ SName "a"` is accepted by `omega` too. -/
theorem C74_index_fails :
    omegaAccepts (fun l => l) (sBin "Le" (sVar (-1000000)) (sName "a")) = true ∧
      ∃ (ρ : Int → ℤ) (σ : String → ℤ) (x y : ℤ),
        Denotes ρ σ (sVar (-1000000)) x ∧ Denotes ρ σ (sName "a") y ∧ ¬ Rel.le.Holds x y :=
  ⟨by decide +kernel, fun _ => 1, fun _ => 0, 1, 0, .var _, .name _, by simp [Rel.Holds]⟩

/-! ### The hypotheses are met -/

/-- A hash order: each element once. -/
def dedupOrder (l : List Int) : List Int := l.dedup

example : HashOrder dedupOrder := fun l => ⟨List.nodup_dedup l, fun _ => List.mem_dedup⟩

/-- `2x + 1 ≤ 2·(x + 1)` is accepted by `lia`. -/
example : liaAccepts (sBin "Le" (sBin "add" (sBin "mul" (sLit 2) (sVar 0)) (sLit 1))
    (sBin "mul" (sBin "add" (sVar 0) (sLit 1)) (sLit 2))) = true := by decide +kernel

example : Linear (sBin "mul" (sBin "add" (sVar 0) (sLit 1)) (sLit 2)) :=
  .mulRight (.add (.var 0) (.lit 1)) (.lit 2)

/-- `x > 1 → x ≥ 2` needs the integers, and `omega` has it. -/
def stepGoal : Term := sBin "Implies" (sBin "Gt" (sName "x") (sLit 1)) (sBin "Ge" (sName "x") (sLit 2))

example : DeBruijn stepGoal := deBruijn_of_b (by decide +kernel)

example : omegaAccepts dedupOrder stepGoal = true := by decide +kernel

/-- `3x ≤ 10 → x ≤ 3`, the example of the documentation. -/
example : omegaAccepts dedupOrder (sBin "Implies"
    (sBin "Le" (sBin "mul" (sLit 3) (sVar 0)) (sLit 10)) (sBin "Le" (sVar 0) (sLit 3))) = true := by
  decide +kernel

/-- `lia` cannot read it without the hypothesis, and rejects it. -/
example : liaAccepts (sBin "Ge" (sName "x") (sLit 2)) = false := by decide +kernel

example (ρ : Int → ℤ) (σ : String → ℤ) : ∃ T, Meaning ρ σ T := ⟨_, truth_meaning ρ σ⟩

example : ∀ c ∈ halfSystem, Canonical c.expr := by
  intro c hc
  rcases List.mem_cons.1 hc with rfl | hc
  · simp [Canonical]
  · rw [List.mem_singleton.1 hc]; simp [Canonical]

end Verif.Props
