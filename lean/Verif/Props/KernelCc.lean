import Verif.Kernel.CcComplete
/-!
# C76: congruence closure

Specification (`Kernel/Cc.lean`): `AppStructure` (any set with an application and values for literals,
variables and names), `Value` (the value of a term in it), `EqMeaning` (equations mean equality of values,
implications mean implications), `equationGoal` (`h₁ → … → hₙ → l = r`).
-/
namespace Verif.Props
open Verif.Kernel

/-- An accepted goal is true in every structure, under every meaning of goals that reads equations and
implications as such, whatever it makes of the hypotheses that are not equations. -/
theorem C76_sound {goal : Term} (h : ccAccepts goal = true) {α : Type} (A : AppStructure α)
    {T : Term → Prop} (hT : EqMeaning A T) : T goal := ccAccepts_true h hT

/-- The equation holds in the structure. -/
def Satisfied {α : Type} (A : AppStructure α) (e : Term × Term) : Prop :=
  ∃ x, Value A e.1 x ∧ Value A e.2 x

theorem satisfied_iff {α : Type} {A : AppStructure α} {e : Term × Term} (h1 : Simple e.1)
    (h2 : Simple e.2) : Satisfied A e ↔ SameValue A e.1 e.2 := by
  constructor
  · rintro ⟨x, hx, hy⟩ z
    exact ⟨fun hz => by rw [hz.unique hx]; exact hy, fun hz => by rw [hz.unique hy]; exact hx⟩
  · intro h
    obtain ⟨x, hx⟩ := h1.value A
    exact ⟨x, hx, (h x).1 hx⟩

/-- An equation that holds in every structure in which the hypotheses hold is accepted, when every
application in a hypothesis after the first occurs already in the conclusion or in the first hypothesis.
**Missing:** without that condition the claim is false (`C76_late_fails`). -/
theorem C76_complete_partial {hs : List (Term × Term)} {l r : Term}
    (hl : Simple l) (hr : Simple r) (hsimple : ∀ e ∈ hs, Simple e.1 ∧ Simple e.2)
    (hearly : ∀ e ∈ hs.tail, ∀ f x, Part (sApp f x) e.1 ∨ Part (sApp f x) e.2 →
      Part (sApp f x) l ∨ Part (sApp f x) r ∨
        ∃ e0, hs.head? = some e0 ∧ (Part (sApp f x) e0.1 ∨ Part (sApp f x) e0.2))
    (hvalid : ∀ (α : Type) (A : AppStructure α), (∀ e ∈ hs, Satisfied A e) → Satisfied A (l, r)) :
    ccAccepts (equationGoal hs (l, r)) = true := by
  refine ccAccepts_complete hl hr hsimple hearly fun α A h => ?_
  rw [← satisfied_iff (e := (l, r)) hl hr]
  exact hvalid α A fun e he => (satisfied_iff (hsimple e he).1 (hsimple e he).2).2 (h e he)

/-- **Disagreement.**  From `x = y` and `f y = c` the equation `f x = c` follows, and it is accepted when
the hypotheses come in the other order; in this order it is rejected: `f y` enters the graph after `x` and
`y` were merged, and is never compared with `f x`. -/
theorem C76_late_fails :
    (∀ (α : Type) (A : AppStructure α),
      (∀ e ∈ [(sName "x", sName "y"), (sApp (sName "f") (sName "y"), sName "c")], Satisfied A e) →
        Satisfied A (sApp (sName "f") (sName "x"), sName "c")) ∧
    ccAccepts (equationGoal [(sApp (sName "f") (sName "y"), sName "c"), (sName "x", sName "y")]
      (sApp (sName "f") (sName "x"), sName "c")) = true ∧
    ccAccepts (equationGoal [(sName "x", sName "y"), (sApp (sName "f") (sName "y"), sName "c")]
      (sApp (sName "f") (sName "x"), sName "c")) = false := by
  refine ⟨?_, by decide +kernel, by decide +kernel⟩
  intro α A h
  obtain ⟨v, h1, h2⟩ := h (sName "x", sName "y") (by simp)
  obtain ⟨w, h3, h4⟩ := h (sApp (sName "f") (sName "y"), sName "c") (by simp)
  obtain ⟨f, y, hf, hy, rfl⟩ := value_sApp.1 h3
  rw [hy.unique h2] at h4
  exact ⟨_, .app hf h1, h4⟩

/-- Equations that carry their type, the only ones `ring` reads, are never accepted, not even
`a = a`. -/
theorem C76_typed_rejected (ty a b : Term) : ccAccepts (sApp (sApp (sApp (sName "Eq") ty) a) b) = false := by
  have hd : (ccDecompose (sApp (sApp (sApp (sName "Eq") ty) a) b)).2 =
      sApp (sApp (sApp (sName "Eq") ty) a) b := by
    simp only [sApp]
    rw [ccDecompose, if_neg]
    rintro ⟨_, _, h⟩
    simp [extractSname] at h
  unfold ccAccepts
  rw [hd]
  have : ccEquality (sApp (sApp (sApp (sName "Eq") ty) a) b) = none := by
    simp [ccEquality, extractBinaryApp, sApp, extractSname]
  rw [this]

/-! ### The hypotheses can be met -/

/-- A meaning of goals. -/
def ccTruth {α : Type} (A : AppStructure α) : Term → Prop
  | .app (.app (.global c) (.app (.app (.global c2) name) a)) b =>
    if c = "SApp" ∧ c2 = "SApp" ∧ extractSname name = some "implies" then (ccTruth A a → ccTruth A b)
    else Satisfied A (a, b)
  | _ => False

theorem ccTruth_meaning {α : Type} (A : AppStructure α) : EqMeaning A (ccTruth A) := by
  constructor
  · intro s a b x y hs ha hb
    simp only [sBin, sApp]
    rw [ccTruth, if_neg]
    · constructor
      · rintro ⟨z, h1, h2⟩; rw [ha.unique h1, hb.unique h2]
      · rintro rfl; exact ⟨x, ha, hb⟩
    · rintro ⟨_, _, h⟩
      rw [extractSname_sName] at h
      rcases hs with rfl | rfl <;> simp at h
  · intro a b
    simp only [sBin, sApp]
    rw [ccTruth, if_pos ⟨rfl, rfl, by simp⟩]

/-- `fⁿ x`. -/
def powers : Nat → Term
  | 0 => sName "x"
  | n + 1 => sApp (sName "f") (powers n)

theorem part_powers {n : Nat} {f x : Term} (h : Part (sApp f x) (powers n)) : ∃ m < n, sApp f x = powers (m + 1) := by
  induction n with
  | zero =>
    rw [powers] at h
    generalize ht : sName "x" = t at h
    cases h with
    | here => simp [sName, sApp] at ht
    | fn => simp [sName, sApp] at ht
    | arg => simp [sName, sApp] at ht
  | succ n ih =>
    generalize ht : powers (n + 1) = t at h
    cases h with
    | here => exact ⟨n, by omega, ht.symm⟩
    | @fn f' x' h =>
      obtain ⟨rfl, _⟩ := sApp_inj ht
      generalize hu : sName "f" = u at h
      cases h with
      | here => simp [sName, sApp] at hu
      | fn => simp [sName, sApp] at hu
      | arg => simp [sName, sApp] at hu
    | @arg f' x' h =>
      obtain ⟨_, rfl⟩ := sApp_inj ht
      obtain ⟨m, hm, e⟩ := ih h
      exact ⟨m, by omega, e⟩

theorem powers_simple (n : Nat) : Simple (powers n) := by
  induction n with
  | zero => exact .name _
  | succ n ih => exact .app (.name _) ih

theorem powers_part {m n : Nat} (h : m ≤ n) : Part (powers m) (powers n) := by
  induction n with
  | zero => rw [Nat.le_zero.1 h]; exact .here
  | succ n ih =>
    rcases Nat.lt_or_ge n m with h' | h'
    · rw [show m = n + 1 by omega]; exact .here
    · exact .arg (ih h')

/-- `f⁵ x = x → f³ x = x → f x = x` meets the conditions of `C76_complete_partial`, and is accepted
because of it. -/
example : ccAccepts (equationGoal [(powers 5, sName "x"), (powers 3, sName "x")] (powers 1, sName "x")) =
    true := by
  refine C76_complete_partial (powers_simple 1) (.name _) ?_ ?_ ?_
  · intro e he
    simp only [List.mem_cons, List.not_mem_nil, or_false] at he
    rcases he with rfl | rfl
    · exact ⟨powers_simple 5, .name _⟩
    · exact ⟨powers_simple 3, .name _⟩
  · intro e he f x h
    simp only [List.tail_cons, List.mem_cons, List.not_mem_nil, or_false] at he
    subst he
    right; right
    refine ⟨_, rfl, Or.inl ?_⟩
    rcases h with h | h
    · obtain ⟨m, hm, e⟩ := part_powers (n := 3) h
      rw [e]; exact powers_part (by omega)
    · obtain ⟨m, hm, e⟩ := part_powers (n := 0) h
      omega
  · intro α A h
    obtain ⟨v, h5, hv⟩ := h (powers 5, sName "x") (by simp)
    obtain ⟨w, h3, hw⟩ := h (powers 3, sName "x") (by simp)
    have hvw := hv.unique hw
    subst hvw
    have e : ∀ {n : Nat} {z : α}, Value A (powers n) z → z = ((A.app (A.name "f"))^[n]) (A.name "x") := by
      intro n
      induction n with
      | zero => intro z hz; exact hz.unique (.name _)
      | succ n ih =>
        intro z hz
        obtain ⟨f, y, hf, hy, rfl⟩ := value_sApp.1 hz
        rw [hf.unique (.name "f"), ih hy, Function.iterate_succ_apply']
    have e5 := e h5
    have e3 := e h3
    have ex : v = A.name "x" := hv.unique (.name _)
    subst ex
    simp only [Function.iterate_succ, Function.iterate_zero, Function.comp_apply, id_eq] at e5 e3
    rw [← e3] at e5
    refine ⟨A.name "x", ?_, .name _⟩
    have : A.app (A.name "f") (A.name "x") = A.name "x" := by
      rw [← e5] at e3
      exact e3.symm
    have hv1 : Value A (powers 1) (A.app (A.name "f") (A.name "x")) := .app (.name _) (.name _)
    rw [this] at hv1
    exact hv1

/-- The same goal with its hypotheses in the order of the textbooks is rejected, for the reason of
`C76_late_fails`. -/
example : ccAccepts (equationGoal [(powers 3, sName "x"), (powers 5, sName "x")] (powers 1, sName "x")) =
    false := by decide +kernel

example : ccAccepts (equationGoal [(powers 3, sName "x")] (powers 1, sName "x")) = false := by
  decide +kernel

example : ccAccepts (equationGoal [(sName "x", sName "y")] (powers 4, sName "x")) = false := by
  decide +kernel

end Verif.Props
