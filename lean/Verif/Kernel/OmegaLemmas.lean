import Verif.Kernel.LinearLemmas
/-! # The `omega` procedure -/
namespace Verif.Kernel

/-- Integer coefficients, rational values. -/
abbrev zq : ℤ →+* ℚ := Int.castRingHom ℚ

theorem foldl_gcd_dvd (l : List Int) : ∀ g : Nat,
    (l.foldl (fun g x => Nat.gcd g x.natAbs) g ∣ g) ∧
      ∀ x ∈ l, l.foldl (fun g x => Nat.gcd g x.natAbs) g ∣ x.natAbs := by
  induction l with
  | nil => intro g; exact ⟨dvd_refl _, by simp⟩
  | cons a t ih =>
    intro g
    have h := ih (Nat.gcd g a.natAbs)
    refine ⟨h.1.trans (Nat.gcd_dvd_left _ _), ?_⟩
    intro x hx
    rcases List.mem_cons.1 hx with rfl | hx
    · exact h.1.trans (Nat.gcd_dvd_right _ _)
    · exact h.2 x hx

theorem exprGcd_dvd (a : LExpr Int) :
    ((exprGcd a : ℤ) ∣ a.const) ∧ ∀ e ∈ a.coeffs, (exprGcd a : ℤ) ∣ e.2 := by
  have key : ∀ x ∈ a.coeffs.map Prod.snd ++ [a.const], (exprGcd a : ℤ) ∣ x := by
    intro x hx
    by_cases h0 : x = 0
    · subst h0; exact dvd_zero _
    · have := (foldl_gcd_dvd ((a.coeffs.map Prod.snd ++ [a.const]).filter
        (fun x => decide (x ≠ 0))) 0).2 x (List.mem_filter.2 ⟨hx, by simpa using h0⟩)
      rw [← Int.natCast_dvd_natCast] at this
      exact Int.dvd_natAbs.1 this
  exact ⟨key _ (by simp), fun e he => key _ (by
    rw [List.mem_append]; exact Or.inl (List.mem_map_of_mem he))⟩

theorem normalize_eval (c : Constr Int) : ∃ k : ℚ, 0 < k ∧ ∀ τ : Int → ℚ,
    c.expr.eval zq τ = k * c.normalize.expr.eval zq τ := by
  unfold Constr.normalize
  split
  · rename_i hg
    refine ⟨(exprGcd c.expr : ℚ), by exact_mod_cast (by omega : 0 < exprGcd c.expr), fun τ => ?_⟩
    have hd := exprGcd_dvd c.expr
    generalize exprGcd c.expr = g at *
    have hq : ∀ n : Int, (g : ℤ) ∣ n → (n : ℚ) = g * (n.tdiv g : ℤ) := by
      intro n hn
      have : n = g * n.tdiv g := (Int.mul_tdiv_cancel' hn).symm
      exact_mod_cast this
    unfold LExpr.eval
    simp only
    have h2 : ∀ l : BMap Int Int, (∀ e ∈ l, (g : ℤ) ∣ e.2) →
        BMap.total (fun v c => zq c * τ v) l =
          g * BMap.total (fun v c => zq c * τ v) (l.map (fun e => (e.1, Int.tdiv e.2 g))) := by
      intro l
      induction l with
      | nil => intro _; simp
      | cons e t ih =>
        intro h
        rw [List.map_cons, BMap.total_cons, BMap.total_cons,
          ih (fun x hx => h x (List.mem_cons_of_mem _ hx))]
        have := hq e.2 (h e (List.mem_cons_self ..))
        simp only [eq_intCast]
        rw [this]; ring
    rw [h2 _ hd.2]
    have := hq c.expr.const hd.1
    simp only [eq_intCast]
    rw [this]; ring
  · exact ⟨1, one_pos, fun τ => (one_mul _).symm⟩

theorem normalize_strict (c : Constr Int) : c.normalize.strict = c.strict := by
  unfold Constr.normalize; split <;> rfl

theorem normalize_holds (c : Constr Int) (τ : Int → ℚ) :
    c.normalize.Holds zq τ ↔ c.Holds zq τ := by
  obtain ⟨k, hk, h⟩ := normalize_eval c
  unfold Constr.Holds
  rw [h τ, normalize_strict]
  unfold lessBy
  split
  · rw [mul_neg_left_iff hk]
  · rw [mul_nonpos_left_iff hk]

theorem normalize_keys (c : Constr Int) : c.normalize.expr.keys = c.expr.keys := by
  unfold Constr.normalize
  split
  · simp [LExpr.keys, List.map_map, Function.comp_def]
  · rfl

theorem normalize_clean {c : Constr Int} (h : c.expr.Clean) : c.normalize.expr.Clean := by
  unfold Constr.normalize
  split
  · rename_i hg
    refine ⟨BMap.sorted_mapVal (f := fun _ x => Int.tdiv x (exprGcd c.expr)) h.1, ?_⟩
    intro e he
    obtain ⟨x, hx, rfl⟩ := List.mem_map.1 he
    have h1 := h.2 x hx
    have h2 := (exprGcd_dvd c.expr).2 x hx
    simp only
    intro h0
    have h3 := Int.mul_tdiv_cancel' h2
    rw [h0] at h3
    exact h1 (by rw [← h3]; simp)
  · exact h

theorem satisfied_iff_int {c : Constr Int} (h : c.expr.isConstant = true) (τ : Int → ℚ) :
    c.satisfiedConstant = true ↔ c.Holds zq τ := by
  unfold Constr.satisfiedConstant Constr.Holds lessBy
  rw [LExpr.eval_of_isConstant _ _ h]
  cases c.strict <;> simp [h]

theorem contradiction_unsat_int {cs : List (Constr Int)} (h : contradiction cs = true)
    (τ : Int → ℚ) : ¬ ∀ c ∈ cs, c.Holds zq τ := by
  intro hs
  unfold contradiction at h
  rw [List.any_eq_true] at h
  obtain ⟨c, hc, h⟩ := h
  rw [Bool.and_eq_true, Bool.not_eq_true'] at h
  have := (satisfied_iff_int h.1 τ).2 (hs c hc)
  rw [this] at h; cases h.2

/-- What a constraint says about one variable. -/
theorem holds_split {c : Constr Int} (hc : c.expr.Clean) (v : Int) (τ : Int → ℚ) (x : ℚ) :
    c.Holds zq (Function.update τ v x) ↔
      lessBy c.strict ((c.expr.without v).eval zq τ + (c.expr.getCoeff v : ℚ) * x) 0 := by
  unfold Constr.Holds
  rw [LExpr.eval_without _ _ hc.1 v, LExpr.eval_update _ _ (LExpr.not_mem_keys_without _ _),
    Function.update_self]
  rfl

theorem omegaPair_holds {lo hi : LExpr Int × Int} (hlo : lo.1.Clean) (τ : Int → ℚ) :
    (omegaPair lo hi).Holds zq τ ↔
      lo.1.eval zq τ * (hi.2 : ℚ) + hi.1.eval zq τ * (lo.2 : ℚ) ≤ 0 := by
  unfold omegaPair
  rw [normalize_holds]
  unfold Constr.Holds
  simp only [lessBy, Bool.false_eq_true, if_false]
  rw [LExpr.eval_add _ _ (LExpr.clean_scale hlo.1 _).1, LExpr.eval_scale, LExpr.eval_scale]
  rfl

theorem lessBy_le {s : Bool} {a b : ℚ} (h : lessBy s a b) : a ≤ b := by
  unfold lessBy at h; split at h
  · exact h.le
  · exact h

/-- Eliminating a variable loses no solution. -/
theorem omegaEliminate_sound {cs : List (Constr Int)} (hcs : ∀ c ∈ cs, c.expr.Clean) (v : Int)
    (τ : Int → ℚ) (x : ℚ) (h : ∀ c ∈ cs, c.Holds zq (Function.update τ v x)) :
    ∀ c ∈ omegaEliminate cs v, c.Holds zq τ := by
  intro c hc
  rcases List.mem_append.1 hc with hc | hc
  · have hm := List.mem_filter.1 hc
    have h0 : c.expr.getCoeff v = 0 := by simpa using hm.2
    have := h c hm.1
    unfold Constr.Holds at *
    rwa [LExpr.eval_update _ _ (LExpr.not_mem_keys_of_coeff (hcs c hm.1) h0)] at this
  · obtain ⟨lo, hlo, hc⟩ := List.mem_flatMap.1 hc
    obtain ⟨hi, hhi, rfl⟩ := List.mem_map.1 hc
    obtain ⟨c1, h1, rfl⟩ := List.mem_map.1 hlo
    obtain ⟨c2, h2, rfl⟩ := List.mem_map.1 hhi
    have h1 := List.mem_filter.1 h1
    have h2 := List.mem_filter.1 h2
    rw [omegaPair_holds (LExpr.clean_without (hcs c1 h1.1) v)]
    have k1 := lessBy_le ((holds_split (hcs c1 h1.1) v τ x).1 (h c1 h1.1))
    have k2 := lessBy_le ((holds_split (hcs c2 h2.1) v τ x).1 (h c2 h2.1))
    have n1 : ((c1.expr.getCoeff v : ℤ) : ℚ) < 0 := by exact_mod_cast of_decide_eq_true h1.2
    have n2 : (0 : ℚ) < ((c2.expr.getCoeff v : ℤ) : ℚ) := by exact_mod_cast of_decide_eq_true h2.2
    simp only [Int.cast_neg]
    generalize ((c1.expr.getCoeff v : ℤ) : ℚ) = a at *
    generalize ((c2.expr.getCoeff v : ℤ) : ℚ) = b at *
    generalize LExpr.eval zq τ (c1.expr.without v) = r at *
    generalize LExpr.eval zq τ (c2.expr.without v) = s at *
    have e1 := mul_nonpos_of_nonneg_of_nonpos n2.le k1
    have e2 := mul_nonpos_of_nonneg_of_nonpos (neg_nonneg.2 n1.le) k2
    nlinarith

/-- For non-strict constraints it gains none either. -/
theorem omegaEliminate_complete {cs : List (Constr Int)} (hcs : ∀ c ∈ cs, c.expr.Clean)
    (hs : ∀ c ∈ cs, c.strict = false) (v : Int) (τ : Int → ℚ)
    (h : ∀ c ∈ omegaEliminate cs v, c.Holds zq τ) :
    ∃ x, ∀ c ∈ cs, c.Holds zq (Function.update τ v x) := by
  obtain ⟨x, hx1, hx2⟩ := exists_between_bounds
    ((omegaLower cs v).map (fun b => (b.1.eval zq τ / (b.2 : ℚ), false)))
    ((omegaUpper cs v).map (fun b => (-b.1.eval zq τ / (b.2 : ℚ), false))) (by
      intro l hl u hu
      obtain ⟨lo, hlo, rfl⟩ := List.mem_map.1 hl
      obtain ⟨hi, hhi, rfl⟩ := List.mem_map.1 hu
      have h1 := h (omegaPair lo hi) (List.mem_append.2 (Or.inr (List.mem_flatMap.2
        ⟨lo, hlo, List.mem_map_of_mem hhi⟩)))
      obtain ⟨c1, k1, rfl⟩ := List.mem_map.1 hlo
      obtain ⟨c2, k2, rfl⟩ := List.mem_map.1 hhi
      have k1 := List.mem_filter.1 k1
      have k2 := List.mem_filter.1 k2
      rw [omegaPair_holds (LExpr.clean_without (hcs c1 k1.1) v)] at h1
      have n1 : ((c1.expr.getCoeff v : ℤ) : ℚ) < 0 := by exact_mod_cast of_decide_eq_true k1.2
      have n2 : (0 : ℚ) < ((c2.expr.getCoeff v : ℤ) : ℚ) := by
        exact_mod_cast of_decide_eq_true k2.2
      simp only [Int.cast_neg, lessBy, Bool.or_self, Bool.false_eq_true, if_false] at h1 ⊢
      rw [div_le_div_iff₀ (by linarith) n2]
      linarith)
  refine ⟨x, fun c hc => ?_⟩
  rw [holds_split (hcs c hc)]
  rw [hs c hc]
  simp only [lessBy, Bool.false_eq_true, if_false]
  rcases lt_trichotomy (c.expr.getCoeff v) 0 with hlt | h0 | hgt
  · have h1 := hx1 ((c.expr.without v).eval zq τ / ((-c.expr.getCoeff v : ℤ) : ℚ), false)
      (List.mem_map_of_mem (f := fun b : LExpr ℤ × ℤ => (b.1.eval zq τ / (b.2 : ℚ), false))
        (List.mem_map_of_mem (f := fun c : Constr ℤ => (c.expr.without v, -c.expr.getCoeff v))
          (List.mem_filter.2 ⟨hc, by simpa using hlt⟩)))
    have n1 : ((c.expr.getCoeff v : ℤ) : ℚ) < 0 := by exact_mod_cast hlt
    simp only [lessBy, Bool.false_eq_true, if_false, Int.cast_neg] at h1
    rw [div_le_iff₀ (by linarith)] at h1
    linarith
  · have h1 := h c (List.mem_append.2 (Or.inl (List.mem_filter.2 ⟨hc, by simpa using h0⟩)))
    have h2 : c.Holds zq (Function.update τ v x) := by
      unfold Constr.Holds at *
      rwa [LExpr.eval_update _ _ (LExpr.not_mem_keys_of_coeff (hcs c hc) h0)]
    rw [holds_split (hcs c hc), hs c hc] at h2
    simpa [lessBy] using h2
  · have h1 := hx2 (-(c.expr.without v).eval zq τ / ((c.expr.getCoeff v : ℤ) : ℚ), false)
      (List.mem_map_of_mem (f := fun b : LExpr ℤ × ℤ => (-b.1.eval zq τ / (b.2 : ℚ), false))
        (List.mem_map_of_mem (f := fun c : Constr ℤ => (c.expr.without v, c.expr.getCoeff v))
          (List.mem_filter.2 ⟨hc, by simpa using hgt⟩)))
    have n1 : (0 : ℚ) < ((c.expr.getCoeff v : ℤ) : ℚ) := by exact_mod_cast hgt
    simp only [lessBy, Bool.false_eq_true, if_false] at h1
    rw [le_div_iff₀ n1] at h1
    linarith

theorem omegaPair_clean {lo hi : LExpr Int × Int} (hlo : lo.1.Clean) :
    (omegaPair lo hi).expr.Clean :=
  normalize_clean (LExpr.clean_add (LExpr.clean_scale hlo.1 _))

theorem omegaEliminate_clean {cs : List (Constr Int)} (hcs : ∀ c ∈ cs, c.expr.Clean) (v : Int) :
    ∀ c ∈ omegaEliminate cs v, c.expr.Clean := by
  intro c hc
  rcases List.mem_append.1 hc with hc | hc
  · exact hcs c (List.mem_filter.1 hc).1
  · obtain ⟨lo, hlo, hc⟩ := List.mem_flatMap.1 hc
    obtain ⟨hi, hhi, rfl⟩ := List.mem_map.1 hc
    obtain ⟨c1, h1, rfl⟩ := List.mem_map.1 hlo
    exact omegaPair_clean (LExpr.clean_without (hcs c1 (List.mem_filter.1 h1).1) v)

theorem omegaEliminate_strict {cs : List (Constr Int)} (hs : ∀ c ∈ cs, c.strict = false) (v : Int) :
    ∀ c ∈ omegaEliminate cs v, c.strict = false := by
  intro c hc
  rcases List.mem_append.1 hc with hc | hc
  · exact hs c (List.mem_filter.1 hc).1
  · obtain ⟨lo, hlo, hc⟩ := List.mem_flatMap.1 hc
    obtain ⟨hi, hhi, rfl⟩ := List.mem_map.1 hc
    exact normalize_strict _

theorem omegaEliminate_keys {cs : List (Constr Int)} (hcs : ∀ c ∈ cs, c.expr.Clean) {v : Int}
    {vs : List Int} (hk : ∀ c ∈ cs, ∀ w ∈ c.expr.keys, w ∈ v :: vs) :
    ∀ c ∈ omegaEliminate cs v, ∀ w ∈ c.expr.keys, w ∈ vs := by
  intro c hc w hw
  have key : ∀ d ∈ cs, w ∈ d.expr.keys → w ≠ v → w ∈ vs := by
    intro d hd h1 h2
    rcases List.mem_cons.1 (hk d hd w h1) with h | h
    · exact absurd h h2
    · exact h
  have key2 : ∀ d ∈ cs, w ∈ (d.expr.without v).keys → w ∈ vs := fun d hd h =>
    key d hd (LExpr.keys_without h) (fun e => LExpr.not_mem_keys_without d.expr v (e ▸ h))
  rcases List.mem_append.1 hc with hc | hc
  · have h := List.mem_filter.1 hc
    refine key c h.1 hw ?_
    rintro rfl
    exact LExpr.not_mem_keys_of_coeff (hcs c h.1) (by simpa using h.2) hw
  · obtain ⟨lo, hlo, hc⟩ := List.mem_flatMap.1 hc
    obtain ⟨hi, hhi, rfl⟩ := List.mem_map.1 hc
    obtain ⟨c1, h1, rfl⟩ := List.mem_map.1 hlo
    obtain ⟨c2, h2, rfl⟩ := List.mem_map.1 hhi
    unfold omegaPair at hw
    rw [normalize_keys] at hw
    rcases LExpr.keys_add hw with h | h
    · exact key2 c1 (List.mem_filter.1 h1).1 (LExpr.keys_scale h)
    · exact key2 c2 (List.mem_filter.1 h2).1 (LExpr.keys_scale h)

theorem omegaLoop_sound (vs : List Int) : ∀ {cs : List (Constr Int)}, (∀ c ∈ cs, c.expr.Clean) →
    omegaLoop vs cs = true → ∀ τ, ¬ ∀ c ∈ cs, c.Holds zq τ := by
  induction vs with
  | nil => intro cs _ h τ; exact contradiction_unsat_int h τ
  | cons v vs ih =>
    intro cs hcs h τ hτ
    have h1 := omegaEliminate_sound hcs v τ (τ v) (by rw [Function.update_eq_self]; exact hτ)
    unfold omegaLoop at h
    split at h
    · rename_i hc; exact contradiction_unsat_int hc τ h1
    · exact ih (omegaEliminate_clean hcs v) h τ h1

theorem omegaLoop_iff (vs : List Int) : ∀ {cs : List (Constr Int)}, (∀ c ∈ cs, c.expr.Clean) →
    (∀ c ∈ cs, c.strict = false) → (∀ c ∈ cs, ∀ w ∈ c.expr.keys, w ∈ vs) →
    (omegaLoop vs cs = true ↔ ¬ ∃ τ, ∀ c ∈ cs, c.Holds zq τ) := by
  induction vs with
  | nil =>
    intro cs hcs hs hk
    constructor
    · rintro h ⟨τ, hτ⟩; exact contradiction_unsat_int h τ hτ
    · intro h
      unfold omegaLoop contradiction
      rw [List.any_eq_true]
      by_contra hn
      refine h ⟨fun _ => 0, fun c hc => ?_⟩
      have hconst : c.expr.isConstant = true :=
        LExpr.isConstant_iff.2 (fun v hv => by cases hk c hc v hv)
      refine (satisfied_iff_int hconst _).1 ?_
      by_contra hc2
      exact hn ⟨c, hc, by simpa [hconst] using hc2⟩
  | cons v vs ih =>
    intro cs hcs hs hk
    constructor
    · rintro h ⟨τ, hτ⟩; exact omegaLoop_sound _ hcs h τ hτ
    · intro h
      unfold omegaLoop
      split
      · rfl
      · refine (ih (omegaEliminate_clean hcs v) (omegaEliminate_strict hs v)
          (omegaEliminate_keys hcs hk)).2 ?_
        rintro ⟨τ, hτ⟩
        obtain ⟨x, hx⟩ := omegaEliminate_complete hcs hs v τ hτ
        exact h ⟨_, hx⟩

theorem map_normalize_holds {cs : List (Constr Int)} (τ : Int → ℚ) :
    (∀ c ∈ cs.map Constr.normalize, c.Holds zq τ) ↔ ∀ c ∈ cs, c.Holds zq τ := by
  simp only [List.mem_map, forall_exists_index, and_imp, forall_apply_eq_imp_iff₂, normalize_holds]

theorem omegaUnsat_sound {order : List Int → List Int} {cs : List (Constr Int)}
    (hcs : ∀ c ∈ cs, c.expr.Clean) (h : omegaUnsat order cs = true) (τ : Int → ℚ) :
    ¬ ∀ c ∈ cs, c.Holds zq τ := by
  have hn : ∀ c ∈ cs.map Constr.normalize, c.expr.Clean := by
    intro c hc
    obtain ⟨d, hd, rfl⟩ := List.mem_map.1 hc
    exact normalize_clean (hcs d hd)
  rw [← map_normalize_holds]
  unfold omegaUnsat at h
  split at h
  · cases h
  · split at h
    · rename_i hc; exact contradiction_unsat_int hc τ
    · exact omegaLoop_sound _ hn h τ

theorem omegaUnsat_iff {order : List Int → List Int} (ho : HashOrder order) {cs : List (Constr Int)}
    (hcs : ∀ c ∈ cs, c.expr.Clean) (hs : ∀ c ∈ cs, c.strict = false) :
    omegaUnsat order cs = true ↔ ¬ ∃ τ, ∀ c ∈ cs, c.Holds zq τ := by
  constructor
  · rintro h ⟨τ, hτ⟩; exact omegaUnsat_sound hcs h τ hτ
  · intro h
    have hn : ∀ c ∈ cs.map Constr.normalize, c.expr.Clean := by
      intro c hc
      obtain ⟨d, hd, rfl⟩ := List.mem_map.1 hc
      exact normalize_clean (hcs d hd)
    have hns : ∀ c ∈ cs.map Constr.normalize, c.strict = false := by
      intro c hc
      obtain ⟨d, hd, rfl⟩ := List.mem_map.1 hc
      rw [normalize_strict]; exact hs d hd
    unfold omegaUnsat
    cases cs with
    | nil => exact absurd ⟨fun _ => 0, by simp⟩ h
    | cons c cs =>
      simp only [List.isEmpty_cons, Bool.false_eq_true, if_false]
      split
      · rfl
      · refine (omegaLoop_iff _ hn hns ?_).2 ?_
        · intro d hd w hw
          rw [(ho _).2]
          exact List.mem_flatMap.2 ⟨d, hd, hw⟩
        · rintro ⟨τ, hτ⟩
          exact h ⟨τ, (map_normalize_holds τ).1 hτ⟩

/-! ## Integers -/

theorem eval_cast (τ : Int → ℤ) (e : LExpr Int) :
    e.eval zq (fun i => ((τ i : ℤ) : ℚ)) = ((e.eval (RingHom.id ℤ) τ : ℤ) : ℚ) := by
  unfold LExpr.eval
  have : BMap.total (fun v c => zq c * ((τ v : ℤ) : ℚ)) e.coeffs =
      ((BMap.total (fun v c => RingHom.id ℤ c * τ v) e.coeffs : ℤ) : ℚ) := by
    induction e.coeffs with
    | nil => simp
    | cons e t ih => rw [BMap.total_cons, BMap.total_cons, ih]; push_cast; simp
  rw [this]; push_cast; simp

theorem holds_cast (τ : Int → ℤ) (c : Constr Int) :
    c.Holds zq (fun i => ((τ i : ℤ) : ℚ)) ↔ c.Holds (RingHom.id ℤ) τ := by
  unfold Constr.Holds
  rw [eval_cast]
  unfold lessBy
  split
  · exact Int.cast_lt_zero
  · exact Int.cast_nonpos

theorem omegaNegated_int {x y : LExpr ℤ} (hx : x.Clean) (hy : y.Clean) (r : Rel) (τ : Int → ℤ) :
    (omegaNegated r x y).Holds (RingHom.id ℤ) τ ↔
      ¬ r.Holds (x.eval (RingHom.id ℤ) τ) (y.eval (RingHom.id ℤ) τ) := by
  cases r <;> simp only [omegaNegated, Constr.Holds, Rel.Holds, LExpr.eval_sub _ _ hx,
    LExpr.eval_sub _ _ hy, LExpr.eval_add _ _ (LExpr.clean_sub hx (b := y)).1,
    LExpr.eval_add _ _ (LExpr.clean_sub hy (b := x)).1, LExpr.eval_constant, lessBy,
    Bool.false_eq_true, if_false, RingHom.id_apply] <;> omega

theorem omegaFact_int {x y : LExpr ℤ} (hx : x.Clean) (hy : y.Clean) (r : Rel) (τ : Int → ℤ) :
    (omegaFact r x y).Holds (RingHom.id ℤ) τ ↔
      r.Holds (x.eval (RingHom.id ℤ) τ) (y.eval (RingHom.id ℤ) τ) := by
  cases r <;> simp only [omegaFact, Constr.Holds, Rel.Holds, LExpr.eval_sub _ _ hx,
    LExpr.eval_sub _ _ hy, LExpr.eval_add _ _ (LExpr.clean_sub hx (b := y)).1,
    LExpr.eval_add _ _ (LExpr.clean_sub hy (b := x)).1, LExpr.eval_constant, lessBy,
    Bool.false_eq_true, if_false, RingHom.id_apply] <;> omega

theorem omegaNegated_clean {x y : LExpr ℤ} (hx : x.Clean) (hy : y.Clean) (r : Rel) :
    (omegaNegated r x y).expr.Clean ∧ (omegaNegated r x y).strict = false := by
  cases r
  · exact ⟨LExpr.clean_sub hy, rfl⟩
  · exact ⟨LExpr.clean_add (LExpr.clean_sub hy), rfl⟩
  · exact ⟨LExpr.clean_sub hx, rfl⟩
  · exact ⟨LExpr.clean_add (LExpr.clean_sub hx), rfl⟩

theorem omegaFact_clean {x y : LExpr ℤ} (hx : x.Clean) (hy : y.Clean) (r : Rel) :
    (omegaFact r x y).expr.Clean ∧ (omegaFact r x y).strict = false := by
  cases r
  · exact ⟨LExpr.clean_add (LExpr.clean_sub hx), rfl⟩
  · exact ⟨LExpr.clean_sub hx, rfl⟩
  · exact ⟨LExpr.clean_add (LExpr.clean_sub hy), rfl⟩
  · exact ⟨LExpr.clean_sub hy, rfl⟩

end Verif.Kernel
