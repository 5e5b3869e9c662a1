import Verif.Lang.IntervalSpec
import Verif.Lang.MaskLemmas
import Mathlib.Tactic.Linarith
import Mathlib.Tactic.Tauto

/-! # The interval operations contain the results of the operators -/
namespace Verif.Lang

/-- The number is at or above the bound. -/
def Bound.below : Bound → Int → Prop
  | .negInf, _ => True
  | .fin a, n => a ≤ n
  | .posInf, _ => False

/-- The number is at or below the bound. -/
def Bound.above : Bound → Int → Prop
  | .negInf, _ => False
  | .fin a, n => n ≤ a
  | .posInf, _ => True

/-- The number lies in the interval. -/
structure Interval.has (i : Interval) (n : Int) : Prop where
  lo : i.lo.below n
  hi : i.hi.above n

/-- The value agrees with the interval: an integer lies in it; about other values nothing is
claimed. -/
def VIn (v : Value) (i : Interval) : Prop :=
  match v with
  | .int n => i.has n
  | _ => i = .top

theorem vin_top (v : Value) : VIn v .top := by
  cases v <;> first | rfl | exact ⟨trivial, trivial⟩

theorem vin_nonint {v : Value} {i : Interval} (h : v.isInt = false) : VIn v i ↔ i = .top := by
  cases v <;> simp_all [VIn, Value.isInt]

theorem below_min {a b : Bound} {n : Int} (h : a.below n ∨ b.below n) : (a.min b).below n := by
  unfold Bound.min Bound.cmp
  cases a <;> cases b <;> simp_all [Bound.below]
  rename_i x y
  by_cases hxy : x < y
  · simp [compare, compareOfLessAndEq, hxy, Bound.below]; omega
  · by_cases he : x = y
    · simp [compare, compareOfLessAndEq, he, Bound.below]; omega
    · simp [compare, compareOfLessAndEq, hxy, he, Bound.below]; omega

theorem above_max {a b : Bound} {n : Int} (h : a.above n ∨ b.above n) : (a.max b).above n := by
  unfold Bound.max Bound.cmp
  cases a <;> cases b <;> simp_all [Bound.above]
  rename_i x y
  by_cases hxy : x < y
  · simp [compare, compareOfLessAndEq, hxy, Bound.above]; omega
  · by_cases he : x = y
    · simp [compare, compareOfLessAndEq, he, Bound.above]; omega
    · simp [compare, compareOfLessAndEq, hxy, he, Bound.above]; omega

theorem below_max {a b : Bound} {n : Int} (h : a.below n ∧ b.below n) : (a.max b).below n := by
  unfold Bound.max
  split
  · exact h.1
  · exact h.2

theorem above_min {a b : Bound} {n : Int} (h : a.above n ∧ b.above n) : (a.min b).above n := by
  unfold Bound.min
  split
  · exact h.1
  · exact h.2

/-- Comparing bounds compares the numbers they bound. -/
theorem cmp_gt {a b : Bound} {x y : Int} (h : a.cmp b = .gt) (ha : a.below x) (hb : b.above y) :
    y < x := by
  unfold Bound.cmp at h
  cases a <;> cases b <;> simp_all [Bound.below, Bound.above]
  rename_i p q
  have : q < p := by
    rcases Int.lt_trichotomy p q with h1 | h1 | h1
    · simp [compare, compareOfLessAndEq, h1] at h
    · simp [compare, compareOfLessAndEq, h1] at h
    · exact h1
  omega

theorem cmp_not_lt {a b : Bound} {x y : Int} (h : a.cmp b ≠ .lt) (ha : a.below x) (hb : b.above y) :
    y ≤ x := by
  unfold Bound.cmp at h
  cases a <;> cases b <;> simp_all [Bound.below, Bound.above]
  rename_i p q
  have : q ≤ p := by
    by_contra h1
    apply h
    have : p < q := by omega
    simp [compare, compareOfLessAndEq, this]
  omega

theorem cmp_lt {a b : Bound} {x y : Int} (h : a.cmp b = .lt) (ha : a.above x) (hb : b.below y) :
    x < y := by
  unfold Bound.cmp at h
  cases a <;> cases b <;> simp_all [Bound.below, Bound.above]
  rename_i p q
  have : p < q := by
    rcases Int.lt_trichotomy p q with h1 | h1 | h1
    · exact h1
    · simp [compare, compareOfLessAndEq, h1] at h
    · have h2 : ¬ p < q := by omega
      have h3 : p ≠ q := by omega
      simp [compare, compareOfLessAndEq, h2, h3] at h
  omega

theorem cmp_not_gt {a b : Bound} {x y : Int} (h : a.cmp b ≠ .gt) (ha : a.above x) (hb : b.below y) :
    x ≤ y := by
  unfold Bound.cmp at h
  cases a <;> cases b <;> simp_all [Bound.below, Bound.above]
  rename_i p q
  have : p ≤ q := by
    by_contra h1
    apply h
    have h2 : ¬ p < q := by omega
    have h3 : p ≠ q := by omega
    simp [compare, compareOfLessAndEq, h2, h3]
  omega

theorem not_bottom {i : Interval} {n : Int} (h : i.has n) : i.isBottom = false := by
  unfold Interval.isBottom
  by_contra hc
  simp at hc
  have := cmp_gt hc h.lo h.hi
  omega

theorem has_exact {i : Interval} {n k : Int} (h : i.has n) (he : i.isExact = some k) : n = k := by
  unfold Interval.isExact at he
  obtain ⟨h1, h2⟩ := h
  split at he
  · rename_i a b ha hb
    split at he
    · cases he
      rw [ha] at h1; rw [hb] at h2
      simp only [Bound.below, Bound.above] at h1 h2
      omega
    · cases he
  · cases he

theorem exact_has (n : Int) : (Interval.exact n).has n := ⟨Int.le_refl n, Int.le_refl n⟩

/-- The value of an exact interval is that integer. -/
theorem vin_exact {v : Value} {i : Interval} {k : Int} (h : VIn v i) (he : i.isExact = some k) :
    v = .int k := by
  cases v with
  | int n => rw [has_exact h he]
  | _ => simp only [VIn] at h; subst h; simp [Interval.isExact, Interval.top] at he

/-- Intervals that agree with some value are not empty. -/
theorem vin_notBottom {v : Value} {i : Interval} (h : VIn v i) : i.isBottom = false := by
  cases v with
  | int n => exact not_bottom h
  | _ => simp only [VIn] at h; subst h; rfl

theorem vin_lo {v : Value} {i : Interval} (h : VIn v i) : i.lo ≠ .posInf ∧ i.hi ≠ .negInf := by
  cases v with
  | int n =>
    constructor
    · intro hc; have := h.lo; rw [hc] at this; exact this
    · intro hc; have := h.hi; rw [hc] at this; exact this
  | _ => simp only [VIn] at h; subst h; simp [Interval.top]

theorem min_negInf (b : Bound) : (Bound.negInf.min b) = .negInf ∧ (b.min .negInf) = .negInf := by
  cases b <;> simp [Bound.min, Bound.cmp]

theorem max_posInf (b : Bound) : (Bound.posInf.max b) = .posInf ∧ (b.max .posInf) = .posInf := by
  cases b <;> simp [Bound.max, Bound.cmp]

theorem vin_join_left {v : Value} {i j : Interval} (h : VIn v i) : VIn v (i.join j) := by
  unfold Interval.join
  simp only [vin_notBottom h, Bool.false_eq_true, if_false]
  split
  · exact h
  · cases v with
    | int n => exact ⟨below_min (.inl h.lo), above_max (.inl h.hi)⟩
    | _ => simp only [VIn] at h; subst h; simp [VIn, Interval.top, min_negInf, max_posInf]

theorem vin_join_right {v : Value} {i j : Interval} (h : VIn v j) : VIn v (i.join j) := by
  unfold Interval.join
  simp only [vin_notBottom h, Bool.false_eq_true, if_false]
  split
  · exact h
  · cases v with
    | int n => exact ⟨below_min (.inr h.lo), above_max (.inr h.hi)⟩
    | _ => simp only [VIn] at h; subst h; simp [VIn, Interval.top, min_negInf, max_posInf]

theorem join_ne_top {i j : Interval} (h : i.join j ≠ .top) (hi : i.isBottom = false)
    (hj : j.isBottom = false) : i ≠ .top ∧ j ≠ .top := by
  constructor
  · rintro rfl; apply h; simp [Interval.join, hi, hj]; simp [Interval.top, min_negInf, max_posInf]
  · rintro rfl; apply h; simp [Interval.join, hi, hj]; simp [Interval.top, min_negInf, max_posInf]

/-! ## Arithmetic -/

/-- A 64-bit integer. -/
theorem narrow_bounds {n : Int} (h : narrow n = true) : -(2 ^ 63) ≤ n ∧ n < 2 ^ 63 :=
  (narrow_iff n).1 h

theorem wrap_below {m n : Int} (h : m ≤ n) (hn : narrow n = true) : (Bound.wrap m).below n := by
  unfold Bound.wrap
  have := narrow_bounds hn
  split
  · exact h
  · rename_i hm
    rw [narrow_iff] at hm
    rw [if_neg (by omega)]
    trivial

theorem wrap_above {m n : Int} (h : n ≤ m) (hn : narrow n = true) : (Bound.wrap m).above n := by
  unfold Bound.wrap
  have := narrow_bounds hn
  split
  · exact h
  · rename_i hm
    rw [narrow_iff] at hm
    rw [if_pos (by omega)]
    trivial

/-- The sign of an overflowing sum is that of the left operand. -/
theorem add_overflow {a b : Int} (ha : narrow a = true) (hb : narrow b = true)
    (h : narrow (a + b) = false) : a > 0 ↔ a + b > 0 := by
  have := narrow_bounds ha
  have := narrow_bounds hb
  have h' : ¬ narrow (a + b) = true := by simp [h]
  rw [narrow_iff] at h'
  omega

theorem add_has {i j : Interval} {x y : Int} (hx : i.has x) (hy : j.has y)
    (hn : narrow (x + y) = true) : (i.add j).has (x + y) := by
  obtain ⟨a, b⟩ := i
  obtain ⟨c, d⟩ := j
  obtain ⟨h1, h2⟩ := hx
  obtain ⟨h3, h4⟩ := hy
  constructor
  · show (a.add c).below _
    cases a <;> cases c <;> simp_all only [Bound.below, Bound.add]
    exact wrap_below (by omega) hn
  · show (b.add d).above _
    cases b <;> cases d <;> simp_all only [Bound.above, Bound.add]
    exact wrap_above (by omega) hn

theorem sub_has {i j : Interval} {x y : Int} (hx : i.has x) (hy : j.has y)
    (hn : narrow (x - y) = true) : (i.sub subRight j).has (x - y) := by
  obtain ⟨a, b⟩ := i
  obtain ⟨c, d⟩ := j
  obtain ⟨h1, h2⟩ := hx
  obtain ⟨h3, h4⟩ := hy
  constructor
  · show (subRight a d).below _
    cases a <;> cases d <;> simp_all only [Bound.below, Bound.above, subRight, Bound.sub]
    exact wrap_below (by omega) hn
  · show (subRight b c).above _
    cases b <;> cases c <;> simp_all only [Bound.below, Bound.above, subRight, Bound.sub]
    exact wrap_above (by omega) hn

/-! ## Products -/

theorem mul_fin {p q : Int} : (Bound.fin p).mul (.fin q) = if p * q = 0 then .fin 0 else .wrap (p * q) := by
  unfold Bound.mul
  by_cases hp : p = 0
  · subst hp; simp
  · by_cases hq : q = 0
    · subst hq; simp
    · simp [hp, hq]

theorem mul_fin_below {p q n : Int} (h : p * q ≤ n) (hn : narrow n = true) :
    ((Bound.fin p).mul (.fin q)).below n := by
  rw [mul_fin]
  split
  · show (0 : Int) ≤ n; omega
  · exact wrap_below h hn

theorem mul_fin_above {p q n : Int} (h : n ≤ p * q) (hn : narrow n = true) :
    ((Bound.fin p).mul (.fin q)).above n := by
  rw [mul_fin]
  split
  · show n ≤ (0 : Int); omega
  · exact wrap_above h hn

theorem mul_neg_pos {a : Bound} (h : a.positive = false) (h0 : a ≠ .fin 0) :
    a.mul .posInf = .negInf ∧ Bound.posInf.mul a = .negInf := by
  cases a <;> simp_all [Bound.mul, Bound.positive]

theorem mul_pos_pos {a : Bound} (h : a.positive = true) :
    a.mul .posInf = .posInf ∧ Bound.posInf.mul a = .posInf := by
  cases a <;> simp_all [Bound.mul, Bound.positive]
  · omega

theorem mul_pos_neg {a : Bound} (h : a.positive = true) :
    a.mul .negInf = .negInf ∧ Bound.negInf.mul a = .negInf := by
  cases a <;> simp_all [Bound.mul, Bound.positive]
  · omega

theorem mul_neg_neg {a : Bound} (h : a.positive = false) (h0 : a ≠ .fin 0) :
    a.mul .negInf = .posInf ∧ Bound.negInf.mul a = .posInf := by
  cases a <;> simp_all [Bound.mul, Bound.positive]

theorem mul_zero_bound (a : Bound) : a.mul (.fin 0) = .fin 0 ∧ (Bound.fin 0).mul a = .fin 0 := by
  simp [Bound.mul]

/-- Some corner is at or below the product. -/
theorem corner_below {a b c d : Bound} {x y : Int} (h1 : a.below x) (h2 : b.above x)
    (h3 : c.below y) (h4 : d.above y) (hn : narrow (x * y) = true) :
    (a.mul c).below (x * y) ∨ (a.mul d).below (x * y) ∨ (b.mul c).below (x * y) ∨
      (b.mul d).below (x * y) := by
  rcases Int.lt_trichotomy y 0 with hy | hy | hy
  · -- `y < 0`: `x * y ≥ b * y`
    cases b with
    | negInf => exact absurd h2 (by simp [Bound.above])
    | posInf =>
      have : c.positive = false ∧ c ≠ .fin 0 := by
        cases c <;> simp_all [Bound.below, Bound.positive]
        omega
      right; right; left
      rw [(mul_neg_pos this.1 this.2).2]; trivial
    | fin b =>
      simp only [Bound.above] at h2
      have hb : b * y ≤ x * y := by nlinarith
      by_cases hb0 : 0 ≤ b
      · cases c with
        | posInf => exact absurd h3 (by simp [Bound.below])
        | negInf =>
          by_cases hz : b = 0
          · subst hz
            right; right; left
            rw [(mul_zero_bound _).2]
            simpa [Bound.below, Bound.above] using hb
          · right; right; left
            rw [(mul_pos_neg (a := .fin b) (by simp [Bound.positive]; omega)).1]; trivial
        | fin c =>
          simp only [Bound.below] at h3
          right; right; left
          exact mul_fin_below (by nlinarith) hn
      · cases d with
        | negInf => exact absurd h4 (by simp [Bound.above])
        | posInf =>
          right; right; right
          rw [(mul_neg_pos (a := .fin b) (by simp [Bound.positive]; omega) (by simp; omega)).1]; trivial
        | fin d =>
          simp only [Bound.above] at h4
          right; right; right
          exact mul_fin_below (by nlinarith) hn
  · subst hy
    rw [Int.mul_zero] at hn ⊢
    cases a with
    | posInf => exact absurd h1 (by simp [Bound.below])
    | negInf =>
      cases d with
      | negInf => exact absurd h4 (by simp [Bound.above])
      | posInf => right; left; rw [(mul_neg_pos (a := .negInf) rfl (by simp)).1]; trivial
      | fin d =>
        simp only [Bound.above] at h4
        by_cases hz : d = 0
        · subst hz; right; left; rw [(mul_zero_bound _).1]; exact Int.le_refl 0
        · right; left
          rw [(mul_pos_neg (a := .fin d) (by simp [Bound.positive]; omega)).2]; trivial
    | fin a =>
      by_cases ha : 0 ≤ a
      · cases c with
        | posInf => exact absurd h3 (by simp [Bound.below])
        | negInf =>
          by_cases hz : a = 0
          · subst hz; left; rw [(mul_zero_bound _).2]; exact Int.le_refl 0
          · left
            rw [(mul_pos_neg (a := .fin a) (by simp [Bound.positive]; omega)).1]; trivial
        | fin c =>
          simp only [Bound.below] at h3
          left; exact mul_fin_below (by nlinarith) hn
      · cases d with
        | negInf => exact absurd h4 (by simp [Bound.above])
        | posInf =>
          right; left
          rw [(mul_neg_pos (a := .fin a) (by simp [Bound.positive]; omega) (by simp; omega)).1]; trivial
        | fin d =>
          simp only [Bound.above] at h4
          right; left; exact mul_fin_below (by nlinarith) hn
  · -- `y > 0`: `x * y ≥ a * y`
    cases a with
    | posInf => exact absurd h1 (by simp [Bound.below])
    | negInf =>
      have : d.positive = true := by
        cases d <;> simp_all [Bound.above, Bound.positive]
        omega
      right; left
      rw [(mul_pos_neg this).2]; trivial
    | fin a =>
      simp only [Bound.below] at h1
      have hb : a * y ≤ x * y := by nlinarith
      by_cases ha : 0 ≤ a
      · cases c with
        | posInf => exact absurd h3 (by simp [Bound.below])
        | negInf =>
          by_cases hz : a = 0
          · subst hz; left; rw [(mul_zero_bound _).2]; simpa [Bound.below, Bound.above] using hb
          · left
            rw [(mul_pos_neg (a := .fin a) (by simp [Bound.positive]; omega)).1]; trivial
        | fin c =>
          simp only [Bound.below] at h3
          left; exact mul_fin_below (by nlinarith) hn
      · cases d with
        | negInf => exact absurd h4 (by simp [Bound.above])
        | posInf =>
          right; left
          rw [(mul_neg_pos (a := .fin a) (by simp [Bound.positive]; omega) (by simp; omega)).1]; trivial
        | fin d =>
          simp only [Bound.above] at h4
          right; left; exact mul_fin_below (by nlinarith) hn

/-- Some corner is at or above the product. -/
theorem corner_above {a b c d : Bound} {x y : Int} (h1 : a.below x) (h2 : b.above x)
    (h3 : c.below y) (h4 : d.above y) (hn : narrow (x * y) = true) :
    (a.mul c).above (x * y) ∨ (a.mul d).above (x * y) ∨ (b.mul c).above (x * y) ∨
      (b.mul d).above (x * y) := by
  by_cases hy : 0 ≤ y
  · -- `x * y ≤ b * y`
    cases b with
    | negInf => exact absurd h2 (by simp [Bound.above])
    | posInf =>
      cases d with
      | negInf => exact absurd h4 (by simp [Bound.above])
      | posInf => right; right; right; rw [(mul_pos_pos (a := .posInf) rfl).1]; trivial
      | fin d =>
        simp only [Bound.above] at h4
        by_cases hz : d = 0
        · subst hz
          have : y = 0 := by omega
          subst this
          right; right; right; rw [(mul_zero_bound _).1]; simp [Bound.above]
        · right; right; right
          rw [(mul_pos_pos (a := .fin d) (by simp [Bound.positive]; omega)).2]; trivial
    | fin b =>
      simp only [Bound.above] at h2
      have hb : x * y ≤ b * y := by nlinarith
      by_cases hb0 : 0 ≤ b
      · cases d with
        | negInf => exact absurd h4 (by simp [Bound.above])
        | posInf =>
          by_cases hz : b = 0
          · subst hz; right; right; right; rw [(mul_zero_bound _).2]; simpa [Bound.below, Bound.above] using hb
          · right; right; right
            rw [(mul_pos_pos (a := .fin b) (by simp [Bound.positive]; omega)).1]; trivial
        | fin d =>
          simp only [Bound.above] at h4
          right; right; right; exact mul_fin_above (by nlinarith) hn
      · cases c with
        | posInf => exact absurd h3 (by simp [Bound.below])
        | negInf =>
          right; right; left
          rw [(mul_neg_neg (a := .fin b) (by simp [Bound.positive]; omega) (by simp; omega)).1]; trivial
        | fin c =>
          simp only [Bound.below] at h3
          right; right; left; exact mul_fin_above (by nlinarith) hn
  · -- `x * y ≤ a * y`
    cases a with
    | posInf => exact absurd h1 (by simp [Bound.below])
    | negInf =>
      have : c.positive = false ∧ c ≠ .fin 0 := by
        cases c <;> simp_all [Bound.below, Bound.positive]
        omega
      left
      rw [(mul_neg_neg this.1 this.2).2]; trivial
    | fin a =>
      simp only [Bound.below] at h1
      have hb : x * y ≤ a * y := by nlinarith
      by_cases ha : 0 ≤ a
      · cases d with
        | negInf => exact absurd h4 (by simp [Bound.above])
        | posInf =>
          by_cases hz : a = 0
          · subst hz; right; left; rw [(mul_zero_bound _).2]; simpa [Bound.below, Bound.above] using hb
          · right; left
            rw [(mul_pos_pos (a := .fin a) (by simp [Bound.positive]; omega)).1]; trivial
        | fin d =>
          simp only [Bound.above] at h4
          right; left; exact mul_fin_above (by nlinarith) hn
      · cases c with
        | posInf => exact absurd h3 (by simp [Bound.below])
        | negInf =>
          left
          rw [(mul_neg_neg (a := .fin a) (by simp [Bound.positive]; omega) (by simp; omega)).1]; trivial
        | fin c =>
          simp only [Bound.below] at h3
          left; exact mul_fin_above (by nlinarith) hn

theorem mul_has {i j : Interval} {x y : Int} (hx : i.has x) (hy : j.has y)
    (hn : narrow (x * y) = true) : (i.mul j).has (x * y) := by
  constructor
  · rcases corner_below hx.lo hx.hi hy.lo hy.hi hn with h | h | h | h
    · exact below_min (.inl (below_min (.inl (below_min (.inl h)))))
    · exact below_min (.inl (below_min (.inl (below_min (.inr h)))))
    · exact below_min (.inl (below_min (.inr h)))
    · exact below_min (.inr h)
  · rcases corner_above hx.lo hx.hi hy.lo hy.hi hn with h | h | h | h
    · exact above_max (.inl (above_max (.inl (above_max (.inl h)))))
    · exact above_max (.inl (above_max (.inl (above_max (.inr h)))))
    · exact above_max (.inl (above_max (.inr h)))
    · exact above_max (.inr h)

/-! ## Division, remainder, shift -/

theorem tdiv_mono {a x k : Int} (hk : 0 < k) (h : a ≤ x) : a.tdiv k ≤ x.tdiv k :=
  Int.tdiv_le_tdiv hk h

theorem tdiv_anti {a x k : Int} (hk : k < 0) (h : a ≤ x) : x.tdiv k ≤ a.tdiv k := by
  have h1 := tdiv_mono (k := -k) (by omega) h
  rw [Int.tdiv_neg, Int.tdiv_neg] at h1
  omega

theorem div_has {i j : Interval} {x y : Int} (hx : i.has x) (hy : j.has y) (h0 : y ≠ 0)
    (hn : narrow (x.tdiv y) = true) : (i.div j).has (x.tdiv y) := by
  unfold Interval.div
  cases hj : j.isExact with
  | none => exact ⟨trivial, trivial⟩
  | some k =>
    have hyk := has_exact hy hj
    subst hyk
    simp only [h0, if_false]
    cases hi : i.isExact with
    | some a =>
      have hxa := has_exact hx hi
      subst hxa
      have : Interval.wrapDiv x y = x.tdiv y := by
        unfold Interval.wrapDiv
        rw [if_neg]
        rintro ⟨rfl, rfl⟩
        revert hn; decide
      simp only [this]
      exact exact_has _
    | none =>
      obtain ⟨a, b⟩ := i
      obtain ⟨h1, h2⟩ := hx
      simp only at h1 h2 ⊢
      split
      · rename_i hk
        constructor
        · cases a <;> simp_all [Bound.below, Bound.divBy]
          exact tdiv_mono hk h1
        · cases b <;> simp_all [Bound.above, Bound.divBy]
          exact tdiv_mono hk h2
      · rename_i hk
        have hk' : y < 0 := by omega
        constructor
        · cases b with
          | negInf => exact h2.elim
          | posInf => simp only [Bound.divBy, if_neg hk]; trivial
          | fin b => exact tdiv_anti hk' h2
        · cases a with
          | posInf => exact h1.elim
          | negInf => simp only [Bound.divBy, if_neg hk]; trivial
          | fin a => exact tdiv_anti hk' h1

theorem tmod_bounds {x k : Int} (hk : k ≠ 0) : -(k.natAbs - 1 : Int) ≤ x.tmod k ∧
    x.tmod k ≤ k.natAbs - 1 ∧ (0 ≤ x → 0 ≤ x.tmod k) ∧ (x ≤ 0 → x.tmod k ≤ 0) := by
  have key : ∀ z : Int, 0 ≤ z → 0 ≤ z.tmod k ∧ z.tmod k < k.natAbs := by
    intro z hz
    refine ⟨Int.tmod_nonneg k hz, ?_⟩
    have := Int.tmod_lt_of_pos z (b := (k.natAbs : Int)) (by omega)
    rcases Int.natAbs_eq k with h | h
    · rw [← h] at this; omega
    · rw [h, Int.tmod_neg]; simpa using this
  rcases Int.le_total 0 x with h | h
  · have := key x h
    refine ⟨by omega, by omega, fun _ => this.1, fun hx => ?_⟩
    have : x = 0 := by omega
    subst this; simp
  · have := key (-x) (by omega)
    rw [Int.neg_tmod] at this
    refine ⟨by omega, by omega, fun hx => ?_, fun _ => by omega⟩
    have : x = 0 := by omega
    subst this; simp

theorem nonneg_has {i : Interval} {x : Int} (h : i.has x) (hn : i.nonneg = true) : 0 ≤ x := by
  obtain ⟨h1, _⟩ := h
  unfold Interval.nonneg at hn
  split at hn
  · rename_i v hv; rw [hv] at h1; simp at hn; simp [Bound.below] at h1; omega
  · cases hn

theorem nonpos_has {i : Interval} {x : Int} (h : i.has x) (hn : i.nonpos = true) : x ≤ 0 := by
  obtain ⟨_, h1⟩ := h
  unfold Interval.nonpos at hn
  split at hn
  · rename_i v hv; rw [hv] at h1; simp at hn; simp [Bound.above] at h1; omega
  · cases hn

theorem mod_has {i j : Interval} {x y : Int} (hx : i.has x) (hy : j.has y) (h0 : y ≠ 0)
    (hm : y ≠ -(2 ^ 63)) : (i.modulo j).has (x.tmod y) := by
  obtain ⟨b1, b2, b3, b4⟩ := tmod_bounds (x := x) h0
  have hopen : (if i.nonneg then Interval.nonNegative else
      if i.nonpos then (⟨.negInf, .fin 0⟩ : Interval) else .top).has (x.tmod y) := by
    split
    · rename_i h; exact ⟨b3 (nonneg_has hx h), trivial⟩
    · split
      · rename_i h; exact ⟨trivial, b4 (nonpos_has hx h)⟩
      · exact ⟨trivial, trivial⟩
  unfold Interval.modulo
  cases hj : j.isExact with
  | none => exact hopen
  | some k =>
    have hyk := has_exact hy hj
    subst hyk
    simp only [h0, if_false]
    cases hi : i.isExact with
    | some a =>
      have hxa := has_exact hx hi
      subst hxa
      exact exact_has _
    | none =>
      have hmb : Interval.modBound y = y.natAbs - 1 := by
        unfold Interval.modBound
        rw [if_neg hm]
        omega
      simp only [hmb]
      constructor
      · show Bound.below (if _ then _ else _) _
        split
        · rename_i h; exact b3 (nonneg_has hx h)
        · exact b1
      · show Bound.above (if _ then _ else _) _
        split
        · rename_i h; exact b4 (nonpos_has hx h)
        · exact b2

theorem shiftRight_mono {a x : Int} (k : Nat) (h : a ≤ x) : a >>> k ≤ x >>> k := by
  rw [Int.shiftRight_eq_div_pow, Int.shiftRight_eq_div_pow]
  exact Int.ediv_le_ediv (by positivity) h

theorem bshr_shift {x k : Int} (hx : narrow x = true) (hk : 0 ≤ k ∧ k < 64) :
    bshr x k = x >>> k.toNat := by
  have hb := narrow_bounds hx
  unfold bshr
  have : (k % 64).toNat = k.toNat := by omega
  rw [this, BitVec.toInt_sshiftRight, BitVec.toInt_ofInt]
  congr 1
  rw [Int.bmod_eq_of_le] <;> omega

theorem shr_has {i j : Interval} {x y : Int} (hx : i.has x) (hy : j.has y)
    (hn : narrow x = true) : (i.shr j).has (bshr x y) := by
  unfold Interval.shr
  cases hj : j.isExact with
  | none => exact ⟨trivial, trivial⟩
  | some k =>
    have hyk := has_exact hy hj
    subst hyk
    simp only
    split
    · rename_i hk
      rw [bshr_shift hn hk]
      obtain ⟨a, b⟩ := i
      obtain ⟨h1, h2⟩ := hx
      constructor
      · cases a <;> simp_all [Bound.below, Bound.shrBy]
        exact shiftRight_mono _ h1
      · cases b <;> simp_all [Bound.above, Bound.shrBy]
        exact shiftRight_mono _ h2
    · exact ⟨trivial, trivial⟩

/-! ## Values that are not integers -/

theorem add_top {v : Value} {j : Interval} (h : VIn v j) :
    Interval.top.add j = .top ∧ j.add .top = .top := by
  obtain ⟨h1, h2⟩ := vin_lo h
  obtain ⟨c, d⟩ := j
  cases c <;> cases d <;> simp_all [Interval.add, Interval.top, Bound.add]

theorem sub_top {v : Value} {j : Interval} (h : VIn v j) :
    Interval.top.sub subRight j = .top ∧ j.sub subRight .top = .top := by
  obtain ⟨h1, h2⟩ := vin_lo h
  obtain ⟨c, d⟩ := j
  cases c <;> cases d <;> simp_all [Interval.sub, Interval.top, subRight, Bound.sub]

theorem mul_top {v : Value} {j : Interval} (h : VIn v j) (h0 : j ≠ .exact 0) :
    Interval.top.mul j = .top ∧ j.mul .top = .top := by
  obtain ⟨h1, h2⟩ := vin_lo h
  have h3 := vin_notBottom h
  obtain ⟨c, d⟩ := j
  have key : ∀ b : Bound, (b = .fin 0 ∧ b.mul .negInf = .fin 0 ∧ b.mul .posInf = .fin 0 ∧
      Bound.negInf.mul b = .fin 0 ∧ Bound.posInf.mul b = .fin 0) ∨
      (b.mul .negInf = .negInf ∧ b.mul .posInf = .posInf ∧
        Bound.negInf.mul b = .negInf ∧ Bound.posInf.mul b = .posInf) ∨
      (b.mul .negInf = .posInf ∧ b.mul .posInf = .negInf ∧
        Bound.negInf.mul b = .posInf ∧ Bound.posInf.mul b = .negInf) := by
    intro b
    by_cases hb : b = .fin 0
    · left; subst hb; simp [mul_zero_bound]
    · cases hp : b.positive with
      | true =>
        right; left
        simp [mul_pos_pos hp, mul_pos_neg hp]
      | false =>
        right; right
        simp [mul_neg_pos hp hb, mul_neg_neg hp hb]
  have hne : ¬ (c = .fin 0 ∧ d = .fin 0) := by
    rintro ⟨rfl, rfl⟩; exact h0 rfl
  simp only [Interval.mul, Interval.top]
  rcases key c with ⟨c0, c1, c2, c3, c4⟩ | ⟨c1, c2, c3, c4⟩ | ⟨c1, c2, c3, c4⟩
  · rcases key d with ⟨d0, d1, d2, d3, d4⟩ | ⟨d1, d2, d3, d4⟩ | ⟨d1, d2, d3, d4⟩
    · exact absurd ⟨c0, d0⟩ hne
    · simp only [c1, c2, c3, c4, d1, d2, d3, d4]; decide
    · simp only [c1, c2, c3, c4, d1, d2, d3, d4]; decide
  · rcases key d with ⟨d0, d1, d2, d3, d4⟩ | ⟨d1, d2, d3, d4⟩ | ⟨d1, d2, d3, d4⟩ <;>
      (simp only [c1, c2, c3, c4, d1, d2, d3, d4]; decide)
  · rcases key d with ⟨d0, d1, d2, d3, d4⟩ | ⟨d1, d2, d3, d4⟩ | ⟨d1, d2, d3, d4⟩ <;>
      (simp only [c1, c2, c3, c4, d1, d2, d3, d4]; decide)

theorem div_top_left (j : Interval) : Interval.top.div j = .top := by
  unfold Interval.div
  split
  · rfl
  · rename_i k _
    split
    · rfl
    · simp only [Interval.isExact, Interval.top, Bound.divBy]
      split <;> rfl

theorem div_top_right (i : Interval) : i.div .top = .top := rfl

theorem int_of_isInt {v : Value} (h : v.isInt = true) : ∃ n, v = .int n := by
  cases v <;> simp_all [Value.isInt]

/-- An interval for a value that is not 0 is not exactly 0. -/
theorem ne_exact_zero {v : Value} {j : Interval} (h : VIn v j) (h0 : v.isIntLit 0 = false) :
    j ≠ .exact 0 := by
  rintro rfl
  have := vin_exact (k := 0) h (by simp [Interval.isExact, Interval.exact])
  subst this
  simp [Value.isIntLit] at h0

/-- The interval of an operator agrees with its result. -/
theorem opRange_sound {P : Prims} {op : BinOp} {a b v : Value} {i j : Interval} (ha : VIn a i)
    (hb : VIn b j) (h : ivOp P op a b = .ok v) : VIn v (opRange subRight op i j) := by
  unfold ivOp at h
  split at h
  case isFalse => cases h
  rename_i ht
  split at h
  case h_2 => cases h
  rename_i w hw
  split at h
  case isFalse => cases h
  rename_i hf
  cases h
  by_cases hint : a.isInt = true ∧ b.isInt = true
  · obtain ⟨⟨x, rfl⟩, y, rfl⟩ := And.intro (int_of_isInt hint.1) (int_of_isInt hint.2)
    have ha' : i.has x := ha
    have hb' : j.has y := hb
    cases op with
    | add =>
      simp only [applyOp, addVals, Except.ok.injEq] at hw
      subst hw
      exact add_has ha' hb' (by simpa [ivFits, Value.isInt, Value.isNarrow, narrow] using hf)
    | sub =>
      simp only [applyOp, subVals, Except.ok.injEq] at hw
      subst hw
      exact sub_has ha' hb' (by simpa [ivFits, Value.isInt, Value.isNarrow, narrow] using hf)
    | mul =>
      simp only [applyOp, mulVals, Except.ok.injEq] at hw
      subst hw
      exact mul_has ha' hb' (by simpa [ivFits, Value.isInt, Value.isNarrow, narrow] using hf)
    | div =>
      simp only [applyOp, divVals] at hw
      split at hw
      · cases hw
      · rename_i h0
        cases hw
        exact div_has ha' hb' h0 (by simpa [ivFits, Value.isInt, Value.isNarrow, narrow] using hf)
    | mod =>
      simp only [applyOp, modVals] at hw
      split at hw
      · cases hw
      · rename_i h0
        cases hw
        exact mod_has ha' hb' h0 (by simpa [ivTame, Value.isIntLit] using ht)
    | shr =>
      simp only [applyOp, shiftVals] at hw
      split at hw
      · rename_i h0
        cases hw
        simp only [Bool.and_eq_true] at h0
        exact shr_has ha' hb' h0.1
      · cases hw
    | _ => exact vin_top _
  · have hside : i = .top ∨ j = .top := by
      by_cases h1 : a.isInt = true
      · right
        have h2 : b.isInt = false := by
          cases h3 : b.isInt with
          | false => rfl
          | true => exact absurd ⟨h1, h3⟩ hint
        exact (vin_nonint h2).1 hb
      · left
        exact (vin_nonint (by simpa using h1)).1 ha
    cases op with
    | add =>
      have : opRange subRight .add i j = .top := by
        rcases hside with rfl | rfl
        · exact (add_top hb).1
        · exact (add_top ha).2
      rw [this]; exact vin_top _
    | sub =>
      have : opRange subRight .sub i j = .top := by
        rcases hside with rfl | rfl
        · exact (sub_top hb).1
        · exact (sub_top ha).2
      rw [this]; exact vin_top _
    | mul =>
      simp only [ivTame, Bool.and_eq_true, Bool.or_eq_true, Bool.not_eq_true'] at ht
      have : opRange subRight .mul i j = .top := by
        by_cases h1 : a.isInt = true
        · have h2 : b.isInt = false := by
            cases h3 : b.isInt with
            | false => rfl
            | true => exact absurd ⟨h1, h3⟩ hint
          have h3 := (vin_nonint h2).1 hb
          subst h3
          refine (mul_top ha (ne_exact_zero ha ?_)).2
          rcases ht.2 with h | h
          · rw [h2] at h; cases h
          · exact h
        · have h2 : a.isInt = false := by simpa using h1
          have h3 := (vin_nonint h2).1 ha
          subst h3
          refine (mul_top hb (ne_exact_zero hb ?_)).1
          rcases ht.1 with h | h
          · exact absurd h h1
          · exact h
      rw [this]; exact vin_top _
    | div =>
      have : opRange subRight .div i j = .top := by
        rcases hside with rfl | rfl
        · exact div_top_left j
        · exact div_top_right i
      rw [this]; exact vin_top _
    | mod =>
      exfalso
      cases a <;> cases b <;> simp_all [applyOp, modVals, Value.isInt]
    | shr =>
      exfalso
      cases a <;> cases b <;> simp_all [applyOp, shiftVals, Value.isInt]
    | _ => exact vin_top _

/-! ## Comparisons -/

theorem relOf_compare (x y : Int) : relOf .lt (some (compare x y)) = decide (x < y) ∧
    relOf .gt (some (compare x y)) = decide (y < x) ∧
    relOf .le (some (compare x y)) = decide (x ≤ y) ∧
    relOf .ge (some (compare x y)) = decide (y ≤ x) := by
  rcases Int.lt_trichotomy x y with h | h | h
  · have h1 : ¬ y < x := by omega
    have h2 : x ≤ y := by omega
    have h3 : ¬ y ≤ x := by omega
    simp [relOf, compare, compareOfLessAndEq, h, h1, h2]
  · subst h
    simp [relOf, compare, compareOfLessAndEq]
  · have h1 : ¬ x < y := by omega
    have h2 : y ≤ x := by omega
    have h3 : ¬ x = y := by omega
    simp [relOf, compare, compareOfLessAndEq, h, h1, h2, h3]

theorem cmp_top_left {v : Value} {j : Interval} (h : VIn v j) :
    Bound.negInf.cmp j.hi = .lt ∧ Bound.posInf.cmp j.lo = .gt := by
  obtain ⟨h1, h2⟩ := vin_lo h
  cases hl : j.lo <;> cases hh : j.hi <;> simp_all [Bound.cmp]

theorem cmp_top_right {v : Value} {j : Interval} (h : VIn v j) :
    j.hi.cmp .negInf = .gt ∧ j.lo.cmp .posInf = .lt := by
  obtain ⟨h1, h2⟩ := vin_lo h
  cases hl : j.lo <;> cases hh : j.hi <;> simp_all [Bound.cmp]

/-- Nothing is decided about a value that is not an integer. -/
theorem decide_top {op : BinOp} {v : Value} {j : Interval} (h : VIn v j) :
    decideOp op .top j = none ∧ decideOp op j .top = none := by
  obtain ⟨h1, h2⟩ := cmp_top_left h
  obtain ⟨h3, h4⟩ := cmp_top_right h
  have e1 : Interval.isExact .top = none := rfl
  have e2 : ∀ o : Option Int, (match o, (none : Option Int) with
    | some a, some b => some (a == b)
    | _, _ => none) = none := by intro o; cases o <;> rfl
  cases op <;> simp_all [decideOp, Interval.defGt, Interval.defLt, Interval.defGe, Interval.defLe,
    Interval.defEq, Interval.defNe, Interval.top] <;> simp [Interval.isExact]

/-- A decided comparison has that result. -/
theorem decideOp_sound {P : Prims} {op : BinOp} {a b v : Value} {i j : Interval} {d : Bool}
    (ha : VIn a i) (hb : VIn b j) (hd : decideOp op i j = some d) (h : applyOp P op a b = .ok v) :
    v = .bool d := by
  by_cases hint : a.isInt = true ∧ b.isInt = true
  · obtain ⟨⟨x, rfl⟩, y, rfl⟩ := And.intro (int_of_isInt hint.1) (int_of_isInt hint.2)
    have ha' : i.has x := ha
    have hb' : j.has y := hb
    obtain ⟨r1, r2, r3, r4⟩ := relOf_compare x y
    cases op with
    | gt =>
      simp only [applyOp, cmpVals, r2, Except.ok.injEq] at h
      subst h
      simp only [decideOp, Interval.defGt] at hd
      split at hd
      · rename_i hc; cases hd
        simp only [beq_iff_eq] at hc
        simp [cmp_gt hc ha'.lo hb'.hi]
      · split at hd
        · rename_i hc; cases hd
          have := cmp_not_gt (by simpa using hc) ha'.hi hb'.lo
          simp; omega
        · cases hd
    | lt =>
      simp only [applyOp, cmpVals, r1, Except.ok.injEq] at h
      subst h
      simp only [decideOp, Interval.defLt] at hd
      split at hd
      · rename_i hc; cases hd
        simp only [beq_iff_eq] at hc
        simp [cmp_lt hc ha'.hi hb'.lo]
      · split at hd
        · rename_i hc; cases hd
          have := cmp_not_lt (by simpa using hc) ha'.lo hb'.hi
          simp; omega
        · cases hd
    | ge =>
      simp only [applyOp, cmpVals, r4, Except.ok.injEq] at h
      subst h
      simp only [decideOp, Interval.defGe] at hd
      split at hd
      · rename_i hc; cases hd
        have := cmp_not_lt (by simpa using hc) ha'.lo hb'.hi
        simp; omega
      · split at hd
        · rename_i hc; cases hd
          simp only [beq_iff_eq] at hc
          have := cmp_lt hc ha'.hi hb'.lo
          simp; omega
        · cases hd
    | le =>
      simp only [applyOp, cmpVals, r3, Except.ok.injEq] at h
      subst h
      simp only [decideOp, Interval.defLe] at hd
      split at hd
      · rename_i hc; cases hd
        have := cmp_not_gt (by simpa using hc) ha'.hi hb'.lo
        simp; omega
      · split at hd
        · rename_i hc; cases hd
          simp only [beq_iff_eq] at hc
          have := cmp_gt hc ha'.lo hb'.hi
          simp; omega
        · cases hd
    | eq =>
      simp only [applyOp, valEq, Except.ok.injEq] at h
      subst h
      simp only [decideOp, Interval.defEq] at hd
      split at hd
      · rename_i p q hp hq
        cases hd
        rw [has_exact ha' hp, has_exact hb' hq]
      · cases hd
    | ne =>
      simp only [applyOp, valEq, Except.ok.injEq] at h
      subst h
      simp only [decideOp, Interval.defNe] at hd
      split at hd
      · rename_i hc; cases hd
        simp only [Bool.or_eq_true, beq_iff_eq] at hc
        have : x ≠ y := by
          rcases hc with hc | hc
          · have := cmp_lt hc ha'.hi hb'.lo; omega
          · have := cmp_gt hc ha'.lo hb'.hi; omega
        simp [this]
      · split at hd
        · rename_i p q hp hq
          cases hd
          rw [has_exact ha' hp, has_exact hb' hq]
          rfl
        · cases hd
    | _ => simp [decideOp] at hd
  · exfalso
    by_cases h1 : a.isInt = true
    · have h2 : b.isInt = false := by
        cases h3 : b.isInt with
        | false => rfl
        | true => exact absurd ⟨h1, h3⟩ hint
      have h3 := (vin_nonint h2).1 hb
      subst h3
      rw [(decide_top ha).2] at hd; cases hd
    · have h3 := (vin_nonint (by simpa using h1)).1 ha
      subst h3
      rw [(decide_top hb).1] at hd; cases hd

/-! ## Narrowing -/

theorem raise_has {i : Interval} {x n : Int} (h : i.has x) (hx : n ≤ x) : (i.raise n).has x := by
  unfold Interval.raise
  split
  · exact ⟨below_max ⟨h.lo, hx⟩, h.hi⟩
  · exact h

theorem lower_has {i : Interval} {x n : Int} (h : i.has x) (hx : x ≤ n) : (i.lower n).has x := by
  unfold Interval.lower
  split
  · exact ⟨h.lo, above_min ⟨h.hi, hx⟩⟩
  · exact h

/-- A comparison of an integer with `n` that holds, or does not, narrows its interval rightly. -/
theorem narrow_has {P : Prims} {op : BinOp} (ho : isOrder op = true) {i : Interval} {x n : Int}
    {d : Bool} (h : i.has x) (hc : applyOp P op (.int x) (.int n) = .ok (.bool d)) :
    ((if d then narrowBy else narrowNot) op n i).has x := by
  obtain ⟨r1, r2, r3, r4⟩ := relOf_compare x n
  cases op <;> simp [isOrder] at ho
  · simp only [applyOp, cmpVals, r1, Except.ok.injEq, Value.bool.injEq] at hc
    cases d <;> simp at hc
    · exact raise_has h hc
    · exact lower_has h (by omega)
  · simp only [applyOp, cmpVals, r2, Except.ok.injEq, Value.bool.injEq] at hc
    cases d <;> simp at hc
    · exact lower_has h hc
    · exact raise_has h (by omega)
  · simp only [applyOp, cmpVals, r3, Except.ok.injEq, Value.bool.injEq] at hc
    cases d <;> simp at hc
    · exact raise_has h (by omega)
    · exact lower_has h hc
  · simp only [applyOp, cmpVals, r4, Except.ok.injEq, Value.bool.injEq] at hc
    cases d <;> simp at hc
    · exact lower_has h (by omega)
    · exact raise_has h hc

end Verif.Lang
