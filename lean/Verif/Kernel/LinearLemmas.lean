import Verif.Common.BMapSum
import Verif.Kernel.Linear
import Verif.Kernel.ReifyLemmas
import Mathlib.Tactic.Ring
import Mathlib.Tactic.Linarith
import Mathlib.Tactic.FieldSimp
import Mathlib.Algebra.Order.Field.Rat
/-! # Linear expressions and their values -/
namespace Verif.Kernel

namespace LExpr
variable {R K : Type} [CommRing R] [DecidableEq R] [CommRing K]

/-- No zero coefficient is stored. -/
def Clean (e : LExpr R) : Prop := BMap.Sorted e.coeffs ∧ ∀ x ∈ e.coeffs, x.2 ≠ 0

/-- The value, with coefficients read through `φ`. -/
def eval (φ : R →+* K) (τ : Int → K) (e : LExpr R) : K :=
  φ e.const + BMap.total (fun v c => φ c * τ v) e.coeffs

theorem clean_constant (c : R) : (constant c).Clean := ⟨BMap.sorted_nil, by simp [constant]⟩

theorem eval_constant (φ : R →+* K) (τ : Int → K) (c : R) : eval φ τ (constant c) = φ c := by
  simp [eval, constant]

theorem addCoeff_spec (φ : R →+* K) (τ : Int → K) {m : BMap Int R} (hm : BMap.Sorted m)
    (e : Int × R) : BMap.Sorted (addCoeff m e) ∧
      ((∀ x ∈ m, x.2 ≠ 0) → ∀ x ∈ addCoeff m e, x.2 ≠ 0) ∧
      BMap.total (fun v c => φ c * τ v) (addCoeff m e) =
        BMap.total (fun v c => φ c * τ v) m + φ e.2 * τ e.1 := by
  unfold addCoeff
  split
  · rename_i hz
    refine ⟨BMap.sorted_remove hm, fun h x hx => h x (List.mem_filter.1 hx).1, ?_⟩
    have h := BMap.total_remove (G := K) (fun v c => φ c * τ v) (k := e.1) hm
    rw [← h]
    cases hg : BMap.get? e.1 m with
    | none =>
      rw [hg] at hz
      simp only [Option.getD_none, zero_add] at hz
      simp [BMap.part, hg, hz]
    | some v =>
      rw [hg] at hz
      simp only [Option.getD_some] at hz
      simp only [BMap.part, hg]
      rw [add_assoc, ← add_mul, ← map_add, hz]; simp
  · rename_i hz
    refine ⟨BMap.sorted_insert hm, fun h x hx => ?_, ?_⟩
    · rcases BMap.mem_insert hx with rfl | hx
      · exact hz
      · exact h x hx
    · exact BMap.total_bump (G := K) (fun v c => φ c * τ v) (fun k => by simp)
        (fun k a b => by simp [add_mul]) hm

theorem fold_spec (φ : R →+* K) (τ : Int → K) (b : BMap Int R) : ∀ {m : BMap Int R}, BMap.Sorted m →
    BMap.Sorted (b.foldl addCoeff m) ∧
      ((∀ x ∈ m, x.2 ≠ 0) → ∀ x ∈ b.foldl addCoeff m, x.2 ≠ 0) ∧
      BMap.total (fun v c => φ c * τ v) (b.foldl addCoeff m) =
        BMap.total (fun v c => φ c * τ v) m + BMap.total (fun v c => φ c * τ v) b := by
  induction b with
  | nil => intro m hm; exact ⟨hm, fun h => h, by simp⟩
  | cons e t ih =>
    intro m hm
    have h1 := addCoeff_spec φ τ hm e
    have h2 := ih h1.1
    refine ⟨h2.1, fun h => h2.2.1 (h1.2.1 h), ?_⟩
    rw [List.foldl_cons, h2.2.2, h1.2.2, BMap.total_cons, add_assoc]

theorem clean_add {a b : LExpr R} (ha : a.Clean) : (add a b).Clean :=
  ⟨(fold_spec (RingHom.id R) (fun _ => 0) b.coeffs ha.1).1,
    (fold_spec (RingHom.id R) (fun _ => 0) b.coeffs ha.1).2.1 ha.2⟩

theorem eval_add (φ : R →+* K) (τ : Int → K) {a b : LExpr R} (ha : BMap.Sorted a.coeffs) :
    eval φ τ (add a b) = eval φ τ a + eval φ τ b := by
  unfold eval add
  simp only [map_add, (fold_spec φ τ b.coeffs ha).2.2]
  ring

theorem clean_neg {a : LExpr R} (ha : a.Clean) : (neg a).Clean := by
  refine ⟨BMap.sorted_mapVal (f := fun _ c => -c) ha.1, ?_⟩
  intro e he
  obtain ⟨x, hx, rfl⟩ := List.mem_map.1 he
  simpa using ha.2 x hx

theorem eval_neg (φ : R →+* K) (τ : Int → K) (a : LExpr R) : eval φ τ (neg a) = - eval φ τ a := by
  unfold eval neg
  simp only [map_neg]
  have : BMap.total (fun v c => φ c * τ v) (a.coeffs.map (fun e => (e.1, -e.2))) =
      - BMap.total (fun v c => φ c * τ v) a.coeffs := by
    induction a.coeffs with
    | nil => simp
    | cons e t ih => rw [List.map_cons, BMap.total_cons, ih, BMap.total_cons]; simp; ring
  rw [this]; ring

theorem clean_sub {a b : LExpr R} (ha : a.Clean) : (sub a b).Clean := clean_add ha

theorem eval_sub (φ : R →+* K) (τ : Int → K) {a b : LExpr R} (ha : a.Clean) :
    eval φ τ (sub a b) = eval φ τ a - eval φ τ b := by
  unfold sub
  rw [eval_add φ τ ha.1, eval_neg]; ring

theorem clean_scale {a : LExpr R} (ha : BMap.Sorted a.coeffs) (c : R) : (scale a c).Clean := by
  unfold scale
  split
  · exact clean_constant 0
  · refine ⟨BMap.sorted_filter (BMap.sorted_mapVal (f := fun _ x => x * c) ha), ?_⟩
    intro e he
    simpa using (List.mem_filter.1 he).2

theorem eval_scale (φ : R →+* K) (τ : Int → K) (a : LExpr R) (c : R) :
    eval φ τ (scale a c) = eval φ τ a * φ c := by
  unfold scale
  split
  · rename_i h; subst h; simp [eval_constant]
  · unfold eval
    simp only [map_mul]
    rw [BMap.total_filter (G := K)]
    · have : BMap.total (fun v x => φ x * τ v) (a.coeffs.map (fun e => (e.1, e.2 * c))) =
          BMap.total (fun v x => φ x * τ v) a.coeffs * φ c := by
        induction a.coeffs with
        | nil => simp
        | cons e t ih => rw [List.map_cons, BMap.total_cons, ih, BMap.total_cons]; simp; ring
      rw [this]; ring
    · intro e _ hz
      have : e.2 = 0 := by simpa using hz
      rw [this]; simp

theorem eval_of_isConstant (φ : R →+* K) (τ : Int → K) {a : LExpr R} (h : a.isConstant = true) :
    eval φ τ a = φ a.const := by
  unfold isConstant at h
  rw [List.isEmpty_iff] at h
  simp [eval, h]

theorem clean_var [Nontrivial R] (i : Int) : (var i : LExpr R).Clean :=
  ⟨by simp [var, BMap.Sorted], by simp [var]⟩

theorem eval_var (φ : R →+* K) (τ : Int → K) (i : Int) : eval φ τ (var i) = τ i := by
  simp [eval, var]

/-! ## One variable apart -/

theorem eval_without (φ : R →+* K) (τ : Int → K) {a : LExpr R} (ha : BMap.Sorted a.coeffs) (v : Int) :
    eval φ τ a = eval φ τ (a.without v) + φ (a.getCoeff v) * τ v := by
  have h := BMap.total_remove (G := K) (fun v c => φ c * τ v) (k := v) ha
  unfold eval without getCoeff
  rw [← h]
  unfold BMap.part
  cases BMap.get? v a.coeffs <;> simp <;> ring

theorem clean_without {a : LExpr R} (ha : a.Clean) (v : Int) : (a.without v).Clean :=
  ⟨BMap.sorted_remove ha.1, fun x hx => ha.2 x (List.mem_filter.1 hx).1⟩

/-- The variables of an expression. -/
def keys (a : LExpr R) : List Int := a.coeffs.map Prod.fst

theorem mem_keys {a : LExpr R} {v : Int} : v ∈ a.keys ↔ ∃ c, (v, c) ∈ a.coeffs := by
  simp [keys]

theorem not_mem_keys_without (a : LExpr R) (v : Int) : v ∉ (a.without v).keys := by
  rw [mem_keys]
  rintro ⟨c, hc⟩
  simpa using (List.mem_filter.1 hc).2

theorem keys_without {a : LExpr R} {v w : Int} (h : w ∈ (a.without v).keys) : w ∈ a.keys := by
  rw [mem_keys] at *
  obtain ⟨c, hc⟩ := h
  exact ⟨c, (List.mem_filter.1 hc).1⟩

theorem keys_addCoeff {m : BMap Int R} {e : Int × R} {w : Int}
    (h : w ∈ (addCoeff m e).map Prod.fst) : w ∈ m.map Prod.fst ∨ w = e.1 := by
  unfold addCoeff at h
  split at h
  · obtain ⟨x, hx, rfl⟩ := List.mem_map.1 h
    exact Or.inl (List.mem_map_of_mem (List.mem_filter.1 hx).1)
  · obtain ⟨x, hx, rfl⟩ := List.mem_map.1 h
    rcases BMap.mem_insert hx with rfl | hx
    · exact Or.inr rfl
    · exact Or.inl (List.mem_map_of_mem hx)

theorem keys_add {a b : LExpr R} {w : Int} (h : w ∈ (add a b).keys) : w ∈ a.keys ∨ w ∈ b.keys := by
  unfold keys add at *
  simp only at h
  generalize a.coeffs = m at *
  generalize b.coeffs = l at *
  induction l generalizing m with
  | nil => exact Or.inl h
  | cons e t ih =>
    rcases ih _ h with h | h
    · rcases keys_addCoeff h with h | rfl
      · exact Or.inl h
      · exact Or.inr (by simp)
    · exact Or.inr (List.mem_cons_of_mem _ h)

theorem keys_neg {a : LExpr R} : (neg a).keys = a.keys := by
  simp [keys, neg, List.map_map, Function.comp_def]

theorem keys_sub {a b : LExpr R} {w : Int} (h : w ∈ (sub a b).keys) : w ∈ a.keys ∨ w ∈ b.keys := by
  have := keys_add h
  rwa [keys_neg] at this

theorem keys_scale {a : LExpr R} {c : R} {w : Int} (h : w ∈ (scale a c).keys) : w ∈ a.keys := by
  unfold scale at h
  split at h
  · simp [keys, constant] at h
  · unfold keys at *
    obtain ⟨x, hx, rfl⟩ := List.mem_map.1 h
    obtain ⟨y, hy, rfl⟩ := List.mem_map.1 (List.mem_filter.1 hx).1
    exact List.mem_map.2 ⟨y, hy, rfl⟩

/-- The value does not depend on variables that do not occur. -/
theorem eval_update (φ : R →+* K) (τ : Int → K) {a : LExpr R} {v : Int} (hv : v ∉ a.keys) (x : K) :
    eval φ (Function.update τ v x) a = eval φ τ a := by
  unfold eval
  congr 1
  refine BMap.total_congr (fun e he => ?_)
  have : e.1 ≠ v := by rintro rfl; exact hv (List.mem_map_of_mem he)
  rw [Function.update_of_ne this]

theorem not_mem_keys_of_coeff {a : LExpr R} (ha : a.Clean) {v : Int} (h : a.getCoeff v = 0) :
    v ∉ a.keys := by
  rw [mem_keys]
  rintro ⟨c, hc⟩
  have h1 := BMap.get?_of_mem ha.1 hc
  rw [getCoeff, h1] at h
  exact ha.2 _ hc (by simpa using h)

theorem isConstant_iff {a : LExpr R} : a.isConstant = true ↔ ∀ v, v ∉ a.keys := by
  unfold isConstant keys
  rw [List.isEmpty_iff]
  constructor
  · intro h v; simp [h]
  · intro h
    cases hc : a.coeffs with
    | nil => rfl
    | cons e t => exact absurd (by rw [hc]; simp) (h e.1)

end LExpr

/-- The linear algebra computes in every commutative ring the coefficients map to. -/
theorem linear_interp {R K : Type} [CommRing R] [DecidableEq R] [Nontrivial R] [CommRing K]
    (φ : R →+* K) : Interp (linearAlgebra R) LExpr.Clean (fun τ e => LExpr.eval φ τ e) where
  lit n τ := ⟨LExpr.clean_constant _, by
    show LExpr.eval φ τ (LExpr.constant (n : R)) = _
    rw [LExpr.eval_constant]; simp⟩
  var i τ := ⟨LExpr.clean_var i, LExpr.eval_var φ τ i⟩
  add x y τ hx _ := ⟨LExpr.clean_add hx, LExpr.eval_add φ τ hx.1⟩
  sub x y τ hx _ := ⟨LExpr.clean_sub hx, LExpr.eval_sub φ τ hx⟩
  mul x y z τ hx hy hz := by
    have hz : linearMul x y = some z := hz
    unfold linearMul at hz
    split at hz
    · rename_i hc
      cases hz
      refine ⟨LExpr.clean_scale hy.1 _, ?_⟩
      rw [LExpr.eval_scale, LExpr.eval_of_isConstant φ τ hc, mul_comm]
    · split at hz
      · rename_i hc
        cases hz
        refine ⟨LExpr.clean_scale hx.1 _, ?_⟩
        rw [LExpr.eval_scale, LExpr.eval_of_isConstant φ τ hc]
      · cases hz

/-! ## Bounds in an ordered field -/

/-- `a ≤ b`, or `a < b` when strict. -/
def lessBy {K : Type} [LT K] [LE K] (s : Bool) (a b : K) : Prop := if s then a < b else a ≤ b

theorem lessBy_or {K : Type} [LinearOrder K] {s t : Bool} {a x b : K}
    (h1 : lessBy s a x) (h2 : lessBy t x b) : lessBy (s || t) a b := by
  cases s <;> cases t <;> simp [lessBy] at * <;> first
    | exact h1.trans h2 | exact h1.trans_lt h2 | exact h1.trans_le h2

/-- Between compatible lower and upper bounds there is a value. -/
theorem exists_between_bounds (lo hi : List (ℚ × Bool))
    (h : ∀ l ∈ lo, ∀ u ∈ hi, lessBy (l.2 || u.2) l.1 u.1) :
    ∃ x, (∀ l ∈ lo, lessBy l.2 l.1 x) ∧ ∀ u ∈ hi, lessBy u.2 x u.1 := by
  have hmax : ∀ l : List (ℚ × Bool), l ≠ [] → ∃ m ∈ l, ∀ e ∈ l, e.1 ≤ m.1 := by
    intro l
    induction l with
    | nil => intro h; exact absurd rfl h
    | cons a t ih =>
      intro _
      by_cases ht : t = []
      · subst ht; exact ⟨a, by simp, by simp⟩
      · obtain ⟨m, hm, hm2⟩ := ih ht
        by_cases hc : a.1 ≤ m.1
        · exact ⟨m, by simp [hm], by rintro e (_ | ⟨_, he⟩); exacts [hc, hm2 e he]⟩
        · exact ⟨a, by simp, by
            rintro e (_ | ⟨_, he⟩)
            · exact le_refl _
            · exact (hm2 e he).trans (le_of_lt (not_le.1 hc))⟩
  have hmin : ∀ l : List (ℚ × Bool), l ≠ [] → ∃ m ∈ l, ∀ e ∈ l, m.1 ≤ e.1 := by
    intro l
    induction l with
    | nil => intro h; exact absurd rfl h
    | cons a t ih =>
      intro _
      by_cases ht : t = []
      · subst ht; exact ⟨a, by simp, by simp⟩
      · obtain ⟨m, hm, hm2⟩ := ih ht
        by_cases hc : m.1 ≤ a.1
        · exact ⟨m, by simp [hm], by rintro e (_ | ⟨_, he⟩); exacts [hc, hm2 e he]⟩
        · exact ⟨a, by simp, by
            rintro e (_ | ⟨_, he⟩)
            · exact le_refl _
            · exact (le_of_lt (not_le.1 hc)).trans (hm2 e he)⟩
  have hlt : ∀ (s : Bool) (a b : ℚ), a < b → lessBy s a b := by
    intro s a b h; cases s <;> simp [lessBy, h, h.le]
  by_cases hl : lo = []
  · subst hl
    by_cases hh : hi = []
    · subst hh; exact ⟨0, by simp, by simp⟩
    · obtain ⟨m, hm, hm2⟩ := hmin hi hh
      exact ⟨m.1 - 1, by simp, fun u hu => hlt _ _ _ (by have := hm2 u hu; linarith)⟩
  · obtain ⟨m, hm, hm2⟩ := hmax lo hl
    by_cases hh : hi = []
    · subst hh
      exact ⟨m.1 + 1, fun l hl => hlt _ _ _ (by have := hm2 l hl; linarith), by simp⟩
    · obtain ⟨n, hn, hn2⟩ := hmin hi hh
      have hmn : m.1 ≤ n.1 := by
        have := h m hm n hn
        unfold lessBy at this; split at this
        · exact this.le
        · exact this
      rcases hmn.lt_or_eq with hlt' | heq
      · refine ⟨(m.1 + n.1) / 2, fun l hl => hlt _ _ _ ?_, fun u hu => hlt _ _ _ ?_⟩
        · have := hm2 l hl; linarith
        · have := hn2 u hu; linarith
      · refine ⟨m.1, fun l hl => ?_, fun u hu => ?_⟩
        · have h1 := h l hl n hn
          rw [← heq] at h1
          cases hs : l.2 with
          | false => simp only [lessBy]; exact hm2 l hl
          | true => rw [hs] at h1; simpa [lessBy] using h1
        · have h1 := h m hm u hu
          cases hs : u.2 with
          | false => simp only [lessBy]; rw [heq]; exact hn2 u hu
          | true => rw [hs] at h1; simpa [lessBy] using h1

/-! ## Constraints -/

/-- The constraint holds. -/
def Constr.Holds {R K : Type} [CommRing R] [CommRing K] [LT K] [LE K] (φ : R →+* K) (τ : Int → K)
    (c : Constr R) : Prop := lessBy c.strict (c.expr.eval φ τ) 0

theorem satisfied_iff {c : Constr ℚ} (h : c.expr.isConstant = true) (τ : Int → ℚ) :
    c.satisfiedConstant = true ↔ c.Holds (RingHom.id ℚ) τ := by
  unfold Constr.satisfiedConstant Constr.Holds lessBy
  rw [LExpr.eval_of_isConstant _ _ h]
  cases c.strict <;> simp [h]

theorem contradiction_unsat {cs : List (Constr ℚ)} (h : contradiction cs = true) (τ : Int → ℚ) :
    ¬ ∀ c ∈ cs, c.Holds (RingHom.id ℚ) τ := by
  intro hs
  unfold contradiction at h
  rw [List.any_eq_true] at h
  obtain ⟨c, hc, h⟩ := h
  rw [Bool.and_eq_true, Bool.not_eq_true'] at h
  have := (satisfied_iff h.1 τ).2 (hs c hc)
  rw [this] at h; cases h.2

theorem mul_neg_left_iff {k x : ℚ} (hk : 0 < k) : k * x < 0 ↔ x < 0 := by
  constructor
  · intro h; by_contra hc; have := mul_nonneg hk.le (not_lt.1 hc); linarith
  · intro h; exact mul_neg_of_pos_of_neg hk h

theorem mul_nonpos_left_iff {k x : ℚ} (hk : 0 < k) : k * x ≤ 0 ↔ x ≤ 0 := by
  constructor
  · intro h; by_contra hc; have := mul_pos hk (not_le.1 hc); linarith
  · intro h; exact mul_nonpos_of_nonneg_of_nonpos hk.le h

/-- The upper bound in words: `x` satisfies the constraint when it is below the bound. -/
theorem upper_iff {c : Constr ℚ} (hc : c.expr.Clean) {v : Int} (hp : 0 < c.expr.getCoeff v)
    (τ : Int → ℚ) (x : ℚ) : c.Holds (RingHom.id ℚ) (Function.update τ v x) ↔
      lessBy (liaBound c v).2 x ((liaBound c v).1.eval (RingHom.id ℚ) τ) := by
  unfold Constr.Holds liaBound
  simp only
  rw [LExpr.eval_without _ _ hc.1 v, LExpr.eval_update _ _ (LExpr.not_mem_keys_without _ _),
    LExpr.eval_scale, LExpr.eval_neg, Function.update_self]
  generalize LExpr.eval (RingHom.id ℚ) τ (c.expr.without v) = r
  generalize c.expr.getCoeff v = k at *
  simp only [RingHom.id_apply]
  have e : r + k * x = k * (x - -r * k⁻¹) := by field_simp; ring
  rw [e]
  unfold lessBy
  split
  · rw [mul_neg_left_iff hp]; constructor <;> intro h <;> linarith
  · rw [mul_nonpos_left_iff hp]; constructor <;> intro h <;> linarith

theorem lower_iff {c : Constr ℚ} (hc : c.expr.Clean) {v : Int} (hp : c.expr.getCoeff v < 0)
    (τ : Int → ℚ) (x : ℚ) : c.Holds (RingHom.id ℚ) (Function.update τ v x) ↔
      lessBy (liaBound c v).2 ((liaBound c v).1.eval (RingHom.id ℚ) τ) x := by
  unfold Constr.Holds liaBound
  simp only
  rw [LExpr.eval_without _ _ hc.1 v, LExpr.eval_update _ _ (LExpr.not_mem_keys_without _ _),
    LExpr.eval_scale, LExpr.eval_neg, Function.update_self]
  generalize LExpr.eval (RingHom.id ℚ) τ (c.expr.without v) = r
  generalize c.expr.getCoeff v = k at *
  simp only [RingHom.id_apply]
  have hk : 0 < -k := by linarith
  have e : r + k * x = -k * (-r * k⁻¹ - x) := by have := hp.ne; field_simp; ring
  rw [e]
  unfold lessBy
  split
  · rw [mul_neg_left_iff hk]; constructor <;> intro h <;> linarith
  · rw [mul_nonpos_left_iff hk]; constructor <;> intro h <;> linarith

theorem clean_liaBound {c : Constr ℚ} (hc : c.expr.Clean) (v : Int) : (liaBound c v).1.Clean :=
  LExpr.clean_scale (LExpr.clean_neg (LExpr.clean_without hc v)).1 _

theorem pair_iff {c d : Constr ℚ} (hc : c.expr.Clean) (v : Int) (τ : Int → ℚ) :
    (liaPair (liaBound c v) (liaBound d v)).Holds (RingHom.id ℚ) τ ↔
      lessBy ((liaBound c v).2 || (liaBound d v).2) ((liaBound c v).1.eval (RingHom.id ℚ) τ)
        ((liaBound d v).1.eval (RingHom.id ℚ) τ) := by
  unfold Constr.Holds liaPair
  simp only
  rw [LExpr.eval_sub _ _ (clean_liaBound hc v)]
  unfold lessBy
  split <;> constructor <;> intro h <;> linarith

/-- Eliminating a variable is exact. -/
theorem eliminate_iff {cs : List (Constr ℚ)} (hcs : ∀ c ∈ cs, c.expr.Clean) (v : Int) (τ : Int → ℚ) :
    (∃ x, ∀ c ∈ cs, c.Holds (RingHom.id ℚ) (Function.update τ v x)) ↔
      ∀ c ∈ liaEliminate cs v, c.Holds (RingHom.id ℚ) τ := by
  have hind : ∀ c ∈ cs, c.expr.getCoeff v = 0 → ∀ x,
      (c.Holds (RingHom.id ℚ) (Function.update τ v x) ↔ c.Holds (RingHom.id ℚ) τ) := by
    intro c hc h0 x
    unfold Constr.Holds
    rw [LExpr.eval_update _ _ (LExpr.not_mem_keys_of_coeff (hcs c hc) h0)]
  constructor
  · rintro ⟨x, hx⟩ c hc
    rcases List.mem_append.1 hc with hc | hc
    · have h := List.mem_filter.1 hc
      exact (hind c h.1 (by simpa using h.2) x).1 (hx c h.1)
    · obtain ⟨lo, hlo, hc⟩ := List.mem_flatMap.1 hc
      obtain ⟨hi, hhi, rfl⟩ := List.mem_map.1 hc
      obtain ⟨c1, h1, rfl⟩ := List.mem_map.1 hlo
      obtain ⟨c2, h2, rfl⟩ := List.mem_map.1 hhi
      have h1 := List.mem_filter.1 h1
      have h2 := List.mem_filter.1 h2
      refine (pair_iff (hcs c1 h1.1) v τ).2 (lessBy_or (x := x) ?_ ?_)
      · exact (lower_iff (hcs c1 h1.1) (by simpa using h1.2) τ x).1 (hx c1 h1.1)
      · exact (upper_iff (hcs c2 h2.1) (by simpa using h2.2) τ x).1 (hx c2 h2.1)
  · intro h
    obtain ⟨x, hx1, hx2⟩ := exists_between_bounds
      ((liaLower cs v).map (fun b => (b.1.eval (RingHom.id ℚ) τ, b.2)))
      ((liaUpper cs v).map (fun b => (b.1.eval (RingHom.id ℚ) τ, b.2))) (by
        intro l hl u hu
        obtain ⟨lo, hlo, rfl⟩ := List.mem_map.1 hl
        obtain ⟨hi, hhi, rfl⟩ := List.mem_map.1 hu
        have h1 := h (liaPair lo hi) (List.mem_append.2 (Or.inr (List.mem_flatMap.2
          ⟨lo, hlo, List.mem_map_of_mem hhi⟩)))
        obtain ⟨c1, k1, rfl⟩ := List.mem_map.1 hlo
        obtain ⟨c2, k2, rfl⟩ := List.mem_map.1 hhi
        have k1 := List.mem_filter.1 k1
        exact (pair_iff (hcs c1 k1.1) v τ).1 h1)
    refine ⟨x, fun c hc => ?_⟩
    rcases lt_trichotomy (c.expr.getCoeff v) 0 with hlt | h0 | hgt
    · refine (lower_iff (hcs c hc) hlt τ x).2 ?_
      exact hx1 ((liaBound c v).1.eval (RingHom.id ℚ) τ, (liaBound c v).2)
        (List.mem_map_of_mem (f := fun b : LExpr ℚ × Bool => (b.1.eval (RingHom.id ℚ) τ, b.2))
          (List.mem_map_of_mem (f := fun c => liaBound c v)
            (List.mem_filter.2 ⟨hc, by simpa using hlt⟩)))
    · exact (hind c hc h0 x).2 (h c (List.mem_append.2 (Or.inl (List.mem_filter.2
        ⟨hc, by simpa using h0⟩))))
    · refine (upper_iff (hcs c hc) hgt τ x).2 ?_
      exact hx2 ((liaBound c v).1.eval (RingHom.id ℚ) τ, (liaBound c v).2)
        (List.mem_map_of_mem (f := fun b : LExpr ℚ × Bool => (b.1.eval (RingHom.id ℚ) τ, b.2))
          (List.mem_map_of_mem (f := fun c => liaBound c v)
            (List.mem_filter.2 ⟨hc, by simpa using hgt⟩)))

theorem eliminate_clean {cs : List (Constr ℚ)} (hcs : ∀ c ∈ cs, c.expr.Clean) (v : Int) :
    ∀ c ∈ liaEliminate cs v, c.expr.Clean := by
  intro c hc
  rcases List.mem_append.1 hc with hc | hc
  · exact hcs c (List.mem_filter.1 hc).1
  · obtain ⟨lo, hlo, hc⟩ := List.mem_flatMap.1 hc
    obtain ⟨hi, hhi, rfl⟩ := List.mem_map.1 hc
    obtain ⟨c1, h1, rfl⟩ := List.mem_map.1 hlo
    exact LExpr.clean_sub (clean_liaBound (hcs c1 (List.mem_filter.1 h1).1) v)

theorem keys_liaBound {c : Constr ℚ} {v w : Int} (h : w ∈ (liaBound c v).1.keys) :
    w ∈ c.expr.keys ∧ w ≠ v := by
  have h1 := LExpr.keys_scale h
  rw [LExpr.keys_neg] at h1
  exact ⟨LExpr.keys_without h1, fun e => LExpr.not_mem_keys_without c.expr v (e ▸ h1)⟩

theorem eliminate_keys {cs : List (Constr ℚ)} (hcs : ∀ c ∈ cs, c.expr.Clean) {v : Int} {vs : List Int}
    (hk : ∀ c ∈ cs, ∀ w ∈ c.expr.keys, w ∈ v :: vs) :
    ∀ c ∈ liaEliminate cs v, ∀ w ∈ c.expr.keys, w ∈ vs := by
  intro c hc w hw
  have key : ∀ d ∈ cs, w ∈ d.expr.keys → w ≠ v → w ∈ vs := by
    intro d hd h1 h2
    rcases List.mem_cons.1 (hk d hd w h1) with h | h
    · exact absurd h h2
    · exact h
  rcases List.mem_append.1 hc with hc | hc
  · have h := List.mem_filter.1 hc
    refine key c h.1 hw ?_
    rintro rfl
    exact LExpr.not_mem_keys_of_coeff (hcs c h.1) (by simpa using h.2) hw
  · obtain ⟨lo, hlo, hc⟩ := List.mem_flatMap.1 hc
    obtain ⟨hi, hhi, rfl⟩ := List.mem_map.1 hc
    obtain ⟨c1, h1, rfl⟩ := List.mem_map.1 hlo
    obtain ⟨c2, h2, rfl⟩ := List.mem_map.1 hhi
    rcases LExpr.keys_sub hw with h | h
    · have := keys_liaBound h; exact key c1 (List.mem_filter.1 h1).1 this.1 this.2
    · have := keys_liaBound h; exact key c2 (List.mem_filter.1 h2).1 this.1 this.2

theorem liaLoop_iff (vs : List Int) : ∀ {cs : List (Constr ℚ)}, (∀ c ∈ cs, c.expr.Clean) →
    (∀ c ∈ cs, ∀ w ∈ c.expr.keys, w ∈ vs) →
    (liaLoop vs cs = true ↔ ¬ ∃ τ, ∀ c ∈ cs, c.Holds (RingHom.id ℚ) τ) := by
  induction vs with
  | nil =>
    intro cs hcs hk
    have hconst : ∀ c ∈ cs, c.expr.isConstant = true := fun c hc =>
      LExpr.isConstant_iff.2 (fun v hv => by cases hk c hc v hv)
    unfold liaLoop
    rw [List.any_eq_true]
    constructor
    · rintro ⟨c, hc, h⟩ ⟨τ, hτ⟩
      have := (satisfied_iff (hconst c hc) τ).2 (hτ c hc)
      rw [this] at h; cases h
    · intro h
      by_contra hn
      refine h ⟨fun _ => 0, fun c hc => (satisfied_iff (hconst c hc) _).1 ?_⟩
      by_contra hc2
      exact hn ⟨c, hc, by simpa using hc2⟩
  | cons v vs ih =>
    intro cs hcs hk
    have step : (∃ τ, ∀ c ∈ cs, c.Holds (RingHom.id ℚ) τ) ↔
        ∃ τ, ∀ c ∈ liaEliminate cs v, c.Holds (RingHom.id ℚ) τ := by
      constructor
      · rintro ⟨τ, h⟩
        refine ⟨τ, (eliminate_iff hcs v τ).1 ⟨τ v, ?_⟩⟩
        rw [Function.update_eq_self]; exact h
      · rintro ⟨τ, h⟩
        obtain ⟨x, hx⟩ := (eliminate_iff hcs v τ).2 h
        exact ⟨_, hx⟩
    rw [step]
    unfold liaLoop
    split
    · rename_i hc
      simp only [true_iff]
      rintro ⟨τ, hτ⟩
      exact contradiction_unsat hc τ hτ
    · exact ih (eliminate_clean hcs v) (eliminate_keys hcs hk)

theorem mem_insertVar {v w : Int} {l : List Int} : w ∈ insertVar v l ↔ w = v ∨ w ∈ l := by
  induction l with
  | nil => simp [insertVar]
  | cons a t ih =>
    simp only [insertVar]
    split
    · rename_i e; subst e; simp
    · split
      · simp
      · simp [ih]; tauto

theorem mem_liaVars {cs : List (Constr ℚ)} {w : Int} :
    w ∈ liaVars cs ↔ ∃ c ∈ cs, w ∈ c.expr.keys := by
  have : ∀ l : List Int, w ∈ l.foldr insertVar [] ↔ w ∈ l := by
    intro l
    induction l with
    | nil => simp
    | cons a t ih => rw [List.foldr_cons, mem_insertVar, ih]; simp
  unfold liaVars
  rw [this, List.mem_flatMap]
  rfl

theorem fourierMotzkin_iff {cs : List (Constr ℚ)} (hcs : ∀ c ∈ cs, c.expr.Clean) :
    fourierMotzkinUnsat cs = true ↔ ¬ ∃ τ, ∀ c ∈ cs, c.Holds (RingHom.id ℚ) τ := by
  unfold fourierMotzkinUnsat
  cases cs with
  | nil => simp
  | cons c cs =>
    simp only [List.isEmpty_cons, Bool.false_eq_true, if_false]
    exact liaLoop_iff _ hcs (fun c hc w hw => mem_liaVars.2 ⟨c, hc, hw⟩)

theorem negated_iff {x y : LExpr ℚ} (hx : x.Clean) (hy : y.Clean) (r : Rel) (τ : Int → ℚ) :
    (liaNegated r x y).Holds (RingHom.id ℚ) τ ↔
      ¬ r.Holds (x.eval (RingHom.id ℚ) τ) (y.eval (RingHom.id ℚ) τ) := by
  cases r <;> simp only [liaNegated, Constr.Holds, Rel.Holds, LExpr.eval_sub _ _ hx,
    LExpr.eval_sub _ _ hy, lessBy, if_true, Bool.false_eq_true, if_false, not_lt, not_le,
    sub_nonpos, sub_neg]

theorem clean_negated {x y : LExpr ℚ} (hx : x.Clean) (hy : y.Clean) (r : Rel) :
    (liaNegated r x y).expr.Clean := by
  cases r
  · exact LExpr.clean_sub hy
  · exact LExpr.clean_sub hy
  · exact LExpr.clean_sub hx
  · exact LExpr.clean_sub hx

theorem liaAccepts_iff {goal : Term} : liaAccepts goal = true ↔
    ∃ s r a b x y v v', relOf s = some r ∧ goal = sBin s a b ∧
      Reads (linearAlgebra ℚ) a Interner.new x v ∧ Reads (linearAlgebra ℚ) b v y v' ∧
      ∀ τ, r.Holds (x.eval (RingHom.id ℚ) τ) (y.eval (RingHom.id ℚ) τ) := by
  have key : ∀ {a b x y v v'} (r : Rel), Reads (linearAlgebra ℚ) a Interner.new x v →
      Reads (linearAlgebra ℚ) b v y v' → (fourierMotzkinUnsat [liaNegated r x y] = true ↔
        ∀ τ, r.Holds (x.eval (RingHom.id ℚ) τ) (y.eval (RingHom.id ℚ) τ)) := by
    intro a b x y v v' r ha hb
    have hx := ha.good (linear_interp (RingHom.id ℚ))
    have hy := hb.good (linear_interp (RingHom.id ℚ))
    rw [fourierMotzkin_iff (by
      intro c hc; rw [List.mem_singleton.1 hc]; exact clean_negated hx hy r)]
    simp only [List.mem_singleton, forall_eq, not_exists, negated_iff hx hy, not_not]
  unfold liaAccepts
  constructor
  · intro h
    split at h
    · cases h
    · rename_i r a b e
      obtain ⟨s, hs, hg⟩ := extractComparison_some e
      split at h
      · cases h
      · rename_i x v ea
        split at h
        · cases h
        · rename_i y v' eb
          have ha := reads_of_reify a ea
          have hb := reads_of_reify b eb
          exact ⟨s, r, a, b, x, y, v, v', hs, hg, ha, hb, (key r ha hb).1 h⟩
  · rintro ⟨s, r, a, b, x, y, v, v', hs, rfl, ha, hb, h⟩
    simp only [extractComparison_sBin hs, reify_of_reads ha, reify_of_reads hb]
    exact (key r ha hb).2 h

end Verif.Kernel
