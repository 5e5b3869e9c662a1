import Verif.Num.RationalText
import Mathlib.Algebra.Order.Ring.Abs
/-! # `Decimal` and `Money` — models of numeric.rs:785-1085 and money.rs -/
namespace Verif.Num

/-- `enum RoundingMode` (numeric.rs:790-806). -/
inductive RoundingMode | down | up | floor | ceiling | halfUp | halfDown | halfEven
deriving DecidableEq

/-- The `away` decision of `round_rational_to_bigint` (numeric.rs:832-840). -/
def roundAway (mode : RoundingMode) (neg : Bool) (half : Ordering) (q : Int) : Bool :=
  match mode with
  | .down => false
  | .up => true
  | .floor => neg
  | .ceiling => !neg
  | .halfUp => decide (half ≠ .lt)
  | .halfDown => decide (half = .gt)
  | .halfEven => decide (half = .gt) || (decide (half = .eq) && decide (q % 2 = 1))

/-- `round_rational_to_bigint` (numeric.rs:820-848). -/
def roundRational (x : Rational) (mode : RoundingMode) : Int :=
  let q := x.num.tdiv x.den
  let r := x.num.tmod x.den
  if r = 0 then q
  else
    let neg := decide (x.num < 0)
    if roundAway mode neg (compare (|r| * 2) x.den) q then (if neg then q - 1 else q + 1) else q

/-- `struct Decimal` (numeric.rs:859-863). The scale is an unbounded natural: overflow of the `u32` scale in
`mul` is not modelled. -/
structure Decimal where
  coeff : Int
  scale : Nat
deriving DecidableEq

/-- `ten_pow` (numeric.rs:809-811). -/
def tenPow (k : Nat) : Int := 10 ^ k

namespace Decimal

/-- `Decimal::from_bigint`, `from_i64` (numeric.rs:867-873). -/
def ofInt (n : Int) : Decimal := ⟨n, 0⟩
/-- `Decimal::negated` (numeric.rs:904-906). -/
def negated (a : Decimal) : Decimal := ⟨-a.coeff, a.scale⟩
/-- `Decimal::abs` (numeric.rs:908-910). -/
def abs (a : Decimal) : Decimal := ⟨|a.coeff|, a.scale⟩
/-- `Decimal::to_rational` (numeric.rs:914-916). -/
def toRational (a : Decimal) : Rational := Rational.expect (Rational.new a.coeff (tenPow a.scale))
/-- `Decimal::from_rational` (numeric.rs:919-922). -/
def fromRational (v : Rational) (scale : Nat) (mode : RoundingMode) : Decimal :=
  ⟨roundRational (v.mul (Rational.ofInt (tenPow scale))) mode, scale⟩
/-- `Decimal::rescale` (numeric.rs:926-932). -/
def rescale (a : Decimal) (scale : Nat) (mode : RoundingMode) : Decimal :=
  if scale ≥ a.scale then ⟨a.coeff * tenPow (scale - a.scale), scale⟩
  else fromRational a.toRational scale mode
/-- `Decimal::aligned` (numeric.rs:935-940). -/
def aligned (a b : Decimal) : Int × Int × Nat :=
  let s := max a.scale b.scale
  (a.coeff * tenPow (s - a.scale), b.coeff * tenPow (s - b.scale), s)
/-- `Decimal::add` (numeric.rs:942-945). -/
def add (a b : Decimal) : Decimal := let p := aligned a b; ⟨p.1 + p.2.1, p.2.2⟩
/-- `Decimal::sub` (numeric.rs:947-950). -/
def sub (a b : Decimal) : Decimal := let p := aligned a b; ⟨p.1 - p.2.1, p.2.2⟩
/-- `Decimal::mul` (numeric.rs:953-955). -/
def mul (a b : Decimal) : Decimal := ⟨a.coeff * b.coeff, a.scale + b.scale⟩
/-- `Decimal::div` (numeric.rs:959-962). -/
def div (a b : Decimal) (scale : Nat) (mode : RoundingMode) : Option Decimal :=
  (a.toRational.div b.toRational).map (fun q => fromRational q scale mode)
/-- The loop of `normalized` (numeric.rs:973-981). -/
def stripZeros : Nat → Int → Int × Nat
  | 0, c => (c, 0)
  | s + 1, c => if c.tmod 10 ≠ 0 then (c, s + 1) else stripZeros s (c.tdiv 10)
/-- `Decimal::normalized` (numeric.rs:966-983). -/
def normalized (a : Decimal) : Int × Nat := if a.coeff = 0 then (0, 0) else stripZeros a.scale a.coeff
/-- `impl PartialEq for Decimal` (numeric.rs:1025-1029). -/
def beq (a b : Decimal) : Bool := decide (a.normalized = b.normalized)
/-- `impl Ord for Decimal` (numeric.rs:1039-1044). -/
def cmp (a b : Decimal) : Ordering := a.toRational.cmp b.toRational

/-- `Decimal::parse` (numeric.rs:998-1021). -/
def parse (ws : Char → Bool) (s : List Char) : Option Decimal :=
  let nb := signOf (trim ws s)
  if nb.2 = [] then none
  else
    let p := (splitOnce '.' nb.2).getD (nb.2, [])
    if p.1 = [] ∧ p.2 = [] then none
    else if ¬ allDigits p.1 ∨ ¬ allDigits p.2 then none
    else match parseInt (p.1 ++ p.2) with
      | none => none
      | some mag => some ⟨if nb.1 then -mag else mag, p.2.length⟩

/-- `impl Display for Decimal` (numeric.rs:1052-1071). -/
def display (a : Decimal) : List Char :=
  if a.scale = 0 then showInt a.coeff
  else
    let d0 := showInt |a.coeff|
    let digits := if d0.length ≤ a.scale then List.replicate (a.scale + 1 - d0.length) '0' ++ d0 else d0
    let point := digits.length - a.scale
    (if a.coeff < 0 then ['-'] else []) ++ digits.take point ++ '.' :: digits.drop point

/-- The number denoted. -/
def toRat (a : Decimal) : ℚ := (a.coeff : ℚ) / 10 ^ a.scale

/-! helper lemmas -/

theorem ten_pos (k : Nat) : (0 : ℚ) < 10 ^ k := by positivity

theorem tenPow_ne (k : Nat) : tenPow k ≠ 0 := by unfold tenPow; positivity

theorem toRational_spec (a : Decimal) : a.toRational.Wf ∧ a.toRational.toRat = a.toRat := by
  have ⟨h1, h2⟩ := Rational.expect_spec (n := a.coeff) (tenPow_ne a.scale)
  refine ⟨h1, ?_⟩
  unfold toRational
  rw [h2]; simp [toRat, tenPow]

theorem add_spec (a b : Decimal) : (a.add b).toRat = a.toRat + b.toRat := by
  simp only [add, aligned, toRat, tenPow]
  push_cast
  have h1 : (10 : ℚ) ^ (max a.scale b.scale - a.scale) = 10 ^ max a.scale b.scale / 10 ^ a.scale := by
    rw [pow_sub₀ _ (by norm_num) (le_max_left ..)]; rfl
  have h2 : (10 : ℚ) ^ (max a.scale b.scale - b.scale) = 10 ^ max a.scale b.scale / 10 ^ b.scale := by
    rw [pow_sub₀ _ (by norm_num) (le_max_right ..)]; rfl
  rw [h1, h2]
  have := (ten_pos (max a.scale b.scale)).ne'
  have := (ten_pos a.scale).ne'
  have := (ten_pos b.scale).ne'
  field_simp

theorem sub_spec (a b : Decimal) : (a.sub b).toRat = a.toRat - b.toRat := by
  have : a.sub b = a.add ⟨-b.coeff, b.scale⟩ := by
    simp only [sub, add, aligned]; congr 1; ring
  rw [this, add_spec]; simp only [toRat]; push_cast; ring

theorem mul_spec (a b : Decimal) : (a.mul b).toRat = a.toRat * b.toRat := by
  simp only [mul, toRat, pow_add]; push_cast
  rw [div_mul_div_comm]

/-- What each mode promises about the integer `n` chosen for the number `x`. -/
def Rounds (mode : RoundingMode) (x : ℚ) (n : Int) : Prop :=
  match mode with
  | .down => |x - n| < 1 ∧ |(n : ℚ)| ≤ |x|
  | .up => |x - n| < 1 ∧ |x| ≤ |(n : ℚ)|
  | .floor => n = ⌊x⌋
  | .ceiling => n = ⌈x⌉
  | .halfUp => |x - n| ≤ 1 / 2 ∧ (|x - n| = 1 / 2 → |x| ≤ |(n : ℚ)|)
  | .halfDown => |x - n| ≤ 1 / 2 ∧ (|x - n| = 1 / 2 → |(n : ℚ)| ≤ |x|)
  | .halfEven => |x - n| ≤ 1 / 2 ∧ (|x - n| = 1 / 2 → Even n)

theorem round_spec {x : Rational} (h : x.Wf) (mode : RoundingMode) :
    Rounds mode x.toRat (roundRational x mode) := by
  obtain ⟨t, e, ht, hn, hp, hz, hte⟩ := Rational.split_spec h
  have hd : (0 : ℚ) < x.den := by exact_mod_cast h.pos
  unfold roundRational
  simp only
  by_cases hr : x.num.tmod x.den = 0
  · rw [if_pos hr]
    have ht0 : t = 0 := hz.1 hr
    rw [ht0, add_zero] at e
    cases mode <;> simp only [Rounds, e] <;> simp
  rw [if_neg hr]
  have ht0 : t ≠ 0 := fun h0 => hr (hz.2 h0)
  -- comparison of the fraction with one half
  have hc : ∀ o, compare (|x.num.tmod x.den| * 2) x.den = o ↔ compare |t| (1 / 2) = o := by
    have e1 : |t| = ((|x.num.tmod x.den| : Int) : ℚ) / x.den := by
      rw [hte, abs_div, abs_of_pos hd]; push_cast; rfl
    have l1 : |x.num.tmod x.den| * 2 < x.den ↔ |t| < 1 / 2 := by
      rw [e1, div_lt_iff₀ hd]
      have : |x.num.tmod x.den| * 2 < x.den ↔ (((|x.num.tmod x.den| * 2 : Int)) : ℚ) < x.den := by exact_mod_cast Iff.rfl
      rw [this]; push_cast; constructor <;> intro h <;> linarith
    have l2 : x.den < |x.num.tmod x.den| * 2 ↔ 1 / 2 < |t| := by
      rw [e1, lt_div_iff₀ hd]
      have : x.den < |x.num.tmod x.den| * 2 ↔ (x.den : ℚ) < (((|x.num.tmod x.den| * 2 : Int)) : ℚ) := by exact_mod_cast Iff.rfl
      rw [this]; push_cast; constructor <;> intro h <;> linarith
    intro o
    rcases lt_trichotomy (|x.num.tmod x.den| * 2) x.den with hh | hh | hh
    · rw [compare_lt_iff_lt.2 hh, compare_lt_iff_lt.2 (l1.1 hh)]
    · have : |t| = 1 / 2 := by
        rcases lt_trichotomy |t| (1/2) with g | g | g
        · have := l1.2 g; omega
        · exact g
        · have := l2.2 g; omega
      rw [compare_eq_iff_eq.2 hh, compare_eq_iff_eq.2 this]
    · rw [compare_gt_iff_gt.2 hh, compare_gt_iff_gt.2 (l2.1 hh)]
  have hcc : compare (|x.num.tmod x.den| * 2) x.den = compare |t| (1 / 2) := (hc _).2 rfl
  rw [hcc]
  generalize x.num.tdiv x.den = q at *
  generalize x.toRat = X at *
  subst e
  clear hc hcc hte hz
  rw [abs_lt] at ht
  by_cases hneg : x.num < 0
  · have ⟨t1, q1⟩ := hn hneg
    have t2 : t < 0 := lt_of_le_of_ne t1 ht0
    have q1' : (q : ℚ) ≤ 0 := by exact_mod_cast q1
    have at' : |t| = -t := abs_of_neg t2
    simp only [hneg, decide_true, if_true]
    rw [at']
    have hx : |(q : ℚ) + t| = -(q + t) := abs_of_neg (by linarith)
    have hq : |(q : ℚ)| = -q := abs_of_nonpos q1'
    have hq2 : |((q - 1 : Int) : ℚ)| = -(q - 1) := by push_cast; exact abs_of_neg (by linarith)
    have d1 : |(q : ℚ) + t - q| = -t := by rw [show (q : ℚ) + t - q = t by ring]; exact at'
    have d2 : |(q : ℚ) + t - ((q - 1 : Int) : ℚ)| = 1 + t := by
      push_cast; rw [show (q : ℚ) + t - (q - 1) = 1 + t by ring]; exact abs_of_pos (by linarith)
    cases mode with
    | down => simp only [Rounds]; rw [if_neg (by simp [roundAway]), hx, hq, d1]; constructor <;> linarith
    | up => simp only [Rounds]; rw [if_pos (by simp [roundAway]), hx, hq2, d2]; constructor <;> linarith
    | floor =>
      simp only [Rounds]; rw [if_pos (by simp [roundAway])]; symm; rw [Int.floor_eq_iff]; push_cast
      constructor <;> linarith
    | ceiling =>
      simp only [Rounds]; rw [if_neg (by simp [roundAway])]; symm; rw [Int.ceil_eq_iff]
      constructor <;> linarith
    | halfUp =>
      simp only [Rounds]
      rcases lt_trichotomy (-t) (1/2) with g | g | g
      · rw [compare_lt_iff_lt.2 g, if_neg (by simp [roundAway]), d1]
        exact ⟨by linarith, fun h => by linarith⟩
      · rw [compare_eq_iff_eq.2 g, if_pos (by simp [roundAway]), d2, hx, hq2]
        exact ⟨by linarith, fun h => by linarith⟩
      · rw [compare_gt_iff_gt.2 g, if_pos (by simp [roundAway]), d2]
        exact ⟨by linarith, fun h => by linarith⟩
    | halfDown =>
      simp only [Rounds]
      rcases lt_trichotomy (-t) (1/2) with g | g | g
      · rw [compare_lt_iff_lt.2 g, if_neg (by simp [roundAway]), d1]
        exact ⟨by linarith, fun h => by linarith⟩
      · rw [compare_eq_iff_eq.2 g, if_neg (by simp [roundAway]), d1, hx, hq]
        exact ⟨by linarith, fun h => by linarith⟩
      · rw [compare_gt_iff_gt.2 g, if_pos (by simp [roundAway]), d2]
        exact ⟨by linarith, fun h => by linarith⟩
    | halfEven =>
      simp only [Rounds]
      rcases lt_trichotomy (-t) (1/2) with g | g | g
      · rw [compare_lt_iff_lt.2 g, if_neg (by simp [roundAway]), d1]
        exact ⟨by linarith, fun h => by linarith⟩
      · rw [compare_eq_iff_eq.2 g]
        by_cases ho : q % 2 = 1
        · rw [if_pos (by simp [roundAway, ho]), d2]
          exact ⟨by linarith, fun _ => by rw [Int.even_iff]; omega⟩
        · rw [if_neg (by simp [roundAway, ho]), d1]
          exact ⟨by linarith, fun _ => by rw [Int.even_iff]; omega⟩
      · rw [compare_gt_iff_gt.2 g, if_pos (by simp [roundAway]), d2]
        exact ⟨by linarith, fun h => by linarith⟩
  · have ⟨t1, q1⟩ := hp hneg
    have t2 : 0 < t := lt_of_le_of_ne t1 (Ne.symm ht0)
    have q1' : (0 : ℚ) ≤ q := by exact_mod_cast q1
    have at' : |t| = t := abs_of_pos t2
    simp only [hneg, decide_false, Bool.false_eq_true, if_false]
    rw [at']
    have hx : |(q : ℚ) + t| = q + t := abs_of_pos (by linarith)
    have hq : |(q : ℚ)| = q := abs_of_nonneg q1'
    have hq2 : |((q + 1 : Int) : ℚ)| = q + 1 := by push_cast; exact abs_of_pos (by linarith)
    have d1 : |(q : ℚ) + t - q| = t := by rw [show (q : ℚ) + t - q = t by ring]; exact at'
    have d2 : |(q : ℚ) + t - ((q + 1 : Int) : ℚ)| = 1 - t := by
      push_cast; rw [show (q : ℚ) + t - (q + 1) = -(1 - t) by ring, abs_neg]; exact abs_of_pos (by linarith)
    cases mode with
    | down => simp only [Rounds]; rw [if_neg (by simp [roundAway]), hx, hq, d1]; constructor <;> linarith
    | up => simp only [Rounds]; rw [if_pos (by simp [roundAway]), hx, hq2, d2]; constructor <;> linarith
    | floor =>
      simp only [Rounds]; rw [if_neg (by simp [roundAway])]; symm; rw [Int.floor_eq_iff]
      constructor <;> linarith
    | ceiling =>
      simp only [Rounds]; rw [if_pos (by simp [roundAway])]; symm; rw [Int.ceil_eq_iff]; push_cast
      constructor <;> linarith
    | halfUp =>
      simp only [Rounds]
      rcases lt_trichotomy t (1/2) with g | g | g
      · rw [compare_lt_iff_lt.2 g, if_neg (by simp [roundAway]), d1]
        exact ⟨by linarith, fun h => by linarith⟩
      · rw [compare_eq_iff_eq.2 g, if_pos (by simp [roundAway]), d2, hx, hq2]
        exact ⟨by linarith, fun h => by linarith⟩
      · rw [compare_gt_iff_gt.2 g, if_pos (by simp [roundAway]), d2]
        exact ⟨by linarith, fun h => by linarith⟩
    | halfDown =>
      simp only [Rounds]
      rcases lt_trichotomy t (1/2) with g | g | g
      · rw [compare_lt_iff_lt.2 g, if_neg (by simp [roundAway]), d1]
        exact ⟨by linarith, fun h => by linarith⟩
      · rw [compare_eq_iff_eq.2 g, if_neg (by simp [roundAway]), d1, hx, hq]
        exact ⟨by linarith, fun h => by linarith⟩
      · rw [compare_gt_iff_gt.2 g, if_pos (by simp [roundAway]), d2]
        exact ⟨by linarith, fun h => by linarith⟩
    | halfEven =>
      simp only [Rounds]
      rcases lt_trichotomy t (1/2) with g | g | g
      · rw [compare_lt_iff_lt.2 g, if_neg (by simp [roundAway]), d1]
        exact ⟨by linarith, fun h => by linarith⟩
      · rw [compare_eq_iff_eq.2 g]
        by_cases ho : q % 2 = 1
        · rw [if_pos (by simp [roundAway, ho]), d2]
          exact ⟨by linarith, fun _ => by rw [Int.even_iff]; omega⟩
        · rw [if_neg (by simp [roundAway, ho]), d1]
          exact ⟨by linarith, fun _ => by rw [Int.even_iff]; omega⟩
      · rw [compare_gt_iff_gt.2 g, if_pos (by simp [roundAway]), d2]
        exact ⟨by linarith, fun h => by linarith⟩

theorem fromRational_spec {v : Rational} (h : v.Wf) (scale : Nat) (mode : RoundingMode) :
    (fromRational v scale mode).scale = scale ∧
    Rounds mode (v.toRat * 10 ^ scale) (fromRational v scale mode).coeff := by
  have ⟨m1, m2⟩ := Rational.mul_spec h (Rational.wf_ofInt (tenPow scale))
  refine ⟨rfl, ?_⟩
  have := round_spec m1 mode
  rw [m2, Rational.toRat_ofInt] at this
  unfold tenPow at this
  push_cast at this
  exact this

theorem rounds_int (mode : RoundingMode) (n : Int) : Rounds mode (n : ℚ) n := by
  cases mode <;> simp [Rounds]

theorem rescale_spec (a : Decimal) (scale : Nat) (mode : RoundingMode) :
    (a.rescale scale mode).scale = scale ∧
    Rounds mode (a.toRat * 10 ^ scale) (a.rescale scale mode).coeff ∧
    (a.scale ≤ scale → (a.rescale scale mode).toRat = a.toRat) := by
  unfold rescale
  by_cases hs : scale ≥ a.scale
  · rw [if_pos hs]
    have h1 : (10 : ℚ) ^ (scale - a.scale) = 10 ^ scale / 10 ^ a.scale := by
      rw [pow_sub₀ _ (by norm_num) hs]; rfl
    refine ⟨rfl, ?_, fun _ => ?_⟩
    · have e : a.toRat * 10 ^ scale = ((a.coeff * tenPow (scale - a.scale) : Int) : ℚ) := by
        simp only [toRat, tenPow]; push_cast; rw [h1]; ring
      rw [e]; exact rounds_int _ _
    · simp only [toRat, tenPow]; push_cast; rw [h1]
      have := (ten_pos scale).ne'
      have := (ten_pos a.scale).ne'
      field_simp
  · rw [if_neg hs]
    have ⟨t1, t2⟩ := toRational_spec a
    have ⟨f1, f2⟩ := fromRational_spec t1 scale mode
    rw [t2] at f2
    exact ⟨f1, f2, fun h => absurd h hs⟩

theorem div_spec (a b : Decimal) (scale : Nat) (mode : RoundingMode) :
    (b.toRat = 0 → a.div b scale mode = none) ∧
    (b.toRat ≠ 0 → ∃ q, a.div b scale mode = some q ∧ q.scale = scale ∧
      Rounds mode (a.toRat / b.toRat * 10 ^ scale) q.coeff) := by
  have ⟨a1, a2⟩ := toRational_spec a
  have ⟨b1, b2⟩ := toRational_spec b
  have ⟨d1, d2⟩ := Rational.div_spec a1 b1
  rw [a2, b2] at d2
  rw [b2] at d1
  constructor
  · intro h; unfold div; rw [d1 h]; rfl
  · intro h
    obtain ⟨r, r1, r2, r3⟩ := d2 h
    have ⟨f1, f2⟩ := fromRational_spec r2 scale mode
    rw [r3] at f2
    exact ⟨_, by unfold div; rw [r1]; rfl, f1, f2⟩

theorem cmp_spec (a b : Decimal) : a.cmp b = compare a.toRat b.toRat := by
  have ⟨a1, a2⟩ := toRational_spec a
  have ⟨b1, b2⟩ := toRational_spec b
  rw [cmp, Rational.cmp_spec a1 b1, a2, b2]

theorem stripZeros_spec (s : Nat) (c : Int) :
    ((stripZeros s c).1 : ℚ) / 10 ^ (stripZeros s c).2 = (c : ℚ) / 10 ^ s ∧
    ((stripZeros s c).2 ≠ 0 → (stripZeros s c).1 % 10 ≠ 0) := by
  induction s generalizing c with
  | zero => simp [stripZeros]
  | succ s ih =>
    rw [stripZeros]
    by_cases h : c.tmod 10 ≠ 0
    · rw [if_pos h]
      refine ⟨rfl, fun _ hc => h ?_⟩
      exact Int.tmod_eq_zero_of_dvd (Int.dvd_of_emod_eq_zero hc)
    · rw [if_neg h]
      have ⟨i1, i2⟩ := ih (c.tdiv 10)
      refine ⟨?_, i2⟩
      rw [i1]
      have e := Int.mul_tdiv_add_tmod c 10
      have h0 : c.tmod 10 = 0 := not_not.1 h
      rw [h0, add_zero] at e
      have : (c : ℚ) = 10 * (c.tdiv 10 : Int) := by exact_mod_cast e.symm
      rw [this, pow_succ]
      have := (ten_pos s).ne'
      field_simp

theorem normal_unique {c1 c2 : Int} {s1 s2 : Nat} (h : (c1 : ℚ) / 10 ^ s1 = (c2 : ℚ) / 10 ^ s2)
    (h1 : s1 ≠ 0 → c1 % 10 ≠ 0) (h2 : s2 ≠ 0 → c2 % 10 ≠ 0) : c1 = c2 ∧ s1 = s2 := by
  have key : ∀ {c1 c2 : Int} {s1 s2 : Nat}, (c1 : ℚ) / 10 ^ s1 = (c2 : ℚ) / 10 ^ s2 →
      (s2 ≠ 0 → c2 % 10 ≠ 0) → s2 ≤ s1 := by
    intro c1 c2 s1 s2 h h2
    by_contra hlt
    obtain ⟨k, rfl⟩ : ∃ k, s2 = s1 + (k + 1) := ⟨s2 - s1 - 1, by omega⟩
    rw [div_eq_div_iff (ten_pos _).ne' (ten_pos _).ne'] at h
    have h3 : c1 * 10 ^ (s1 + (k + 1)) = c2 * 10 ^ s1 := by exact_mod_cast h
    rw [pow_add, ← mul_assoc, mul_right_comm] at h3
    have h4 : c1 * 10 ^ (k + 1) = c2 := mul_right_cancel₀ (by positivity) h3
    apply h2 (by omega)
    rw [← h4, pow_succ, ← mul_assoc]
    exact Int.mul_emod_left _ _
  have hs : s1 = s2 := le_antisymm (key h.symm h1) (key h h2)
  subst hs
  refine ⟨?_, rfl⟩
  rw [div_left_inj' (ten_pos _).ne'] at h
  exact_mod_cast h

theorem beq_spec (a b : Decimal) : a.beq b = true ↔ a.toRat = b.toRat := by
  have hn : ∀ x : Decimal, (x.normalized.1 : ℚ) / 10 ^ x.normalized.2 = x.toRat ∧
      (x.normalized.2 ≠ 0 → x.normalized.1 % 10 ≠ 0) := by
    intro x
    unfold normalized
    by_cases h0 : x.coeff = 0
    · rw [if_pos h0]; simp [toRat, h0]
    · rw [if_neg h0]; exact stripZeros_spec _ _
  have ⟨a1, a2⟩ := hn a
  have ⟨b1, b2⟩ := hn b
  rw [beq, decide_eq_true_eq]
  constructor
  · intro h; rw [← a1, ← b1, h]
  · intro h
    have ⟨e1, e2⟩ := normal_unique (by rw [a1, b1, h]) a2 b2
    exact Prod.ext e1 e2

/-! Text -/

theorem parse_display {ws : Char → Bool} (hw : NumeralChars ws) (a : Decimal) : parse ws a.display = some a := by
  have parts : ∃ i f : List Char, i ≠ [] ∧ (∀ c ∈ i, c.isDigit = true) ∧ (∀ c ∈ f, c.isDigit = true) ∧
      f.length = a.scale ∧ digitsVal (i ++ f) = a.coeff.natAbs ∧
      a.display = (if a.coeff < 0 then ['-'] else []) ++ (if a.scale = 0 then i else i ++ '.' :: f) := by
    by_cases h0 : a.scale = 0
    · refine ⟨dec a.coeff.natAbs, [], dec_ne_nil _, fun c hc => isDigit_dec hc, by simp, by simp [h0],
        by simp [digitsVal_dec], ?_⟩
      simp [display, h0, showInt]
    · have e0 : showInt |a.coeff| = dec a.coeff.natAbs := by
        unfold showInt
        rw [if_neg (by have := abs_nonneg a.coeff; omega), Int.natAbs_abs]; rfl
      set D : List Char := if (dec a.coeff.natAbs).length ≤ a.scale then
        List.replicate (a.scale + 1 - (dec a.coeff.natAbs).length) '0' ++ dec a.coeff.natAbs else dec a.coeff.natAbs with hD
      have hdig : ∀ c ∈ D, c.isDigit = true := by
        intro c hc
        rw [hD] at hc
        split at hc
        · rw [List.mem_append] at hc
          rcases hc with hc | hc
          · rw [List.eq_of_mem_replicate hc]; decide
          · exact isDigit_dec hc
        · exact isDigit_dec hc
      have hval : digitsVal D = a.coeff.natAbs := by
        rw [hD]
        split
        · rw [digitsVal_append, digitsVal_dec]
          have : ∀ k, digitsVal (List.replicate k '0') = 0 := by
            intro k; rw [← fixDigits_zero, digitsVal_fix]; simp
          rw [this]; simp
        · exact digitsVal_dec _
      have hlen : a.scale < D.length := by
        rw [hD]
        split
        · simp; omega
        · omega
      refine ⟨D.take (D.length - a.scale), D.drop (D.length - a.scale), ?_, ?_, ?_, ?_, ?_, ?_⟩
      · intro h
        have := congrArg List.length h
        simp at this; omega
      · exact fun c hc => hdig c (List.mem_of_mem_take hc)
      · exact fun c hc => hdig c (List.mem_of_mem_drop hc)
      · simp; omega
      · rw [List.take_append_drop, hval]
      · unfold display
        rw [if_neg h0, if_neg h0]
        simp only [e0]
        rw [← hD, List.append_assoc]
  obtain ⟨i, f, hi, hdi, hdf, hlen, hval, hdisp⟩ := parts
  have hbody : ∀ c ∈ (if a.scale = 0 then i else i ++ '.' :: f), c.isDigit = true ∨ c = '.' := by
    intro c hc
    split at hc
    · exact Or.inl (hdi c hc)
    · rw [List.mem_append, List.mem_cons] at hc
      rcases hc with hc | hc | hc
      · exact Or.inl (hdi c hc)
      · exact Or.inr hc
      · exact Or.inl (hdf c hc)
  have hws : ∀ c ∈ a.display, ws c = false := by
    intro c hc
    rw [hdisp, List.mem_append] at hc
    rcases hc with hc | hc
    · split at hc <;> simp at hc; subst hc; exact hw.minus
    · rcases hbody c hc with h | rfl
      · exact hw.digit c h
      · exact hw.dot
  have hsign : signOf a.display = (decide (a.coeff < 0), if a.scale = 0 then i else i ++ '.' :: f) := by
    rw [hdisp]
    by_cases hn : a.coeff < 0
    · simp [hn, signOf]
    · simp only [hn, if_false, List.nil_append, decide_false]
      obtain ⟨c, t, rfl⟩ : ∃ c t, i = c :: t := by
        cases i with
        | nil => exact absurd rfl hi
        | cons c t => exact ⟨c, t, rfl⟩
      have hc := hdi c List.mem_cons_self
      have key : ∀ l : List Char, signOf (c :: l) = (false, c :: l) := by
        intro l
        unfold signOf
        split
        · rename_i h; injection h with h1 h2; subst h1; exact absurd hc (by decide)
        · rename_i h; injection h with h1 h2; subst h1; exact absurd hc (by decide)
        · rfl
      split
      · exact key t
      · exact key _
  have hdot : '.' ∉ i := fun hc => absurd (hdi _ hc) (by decide)
  have hsplit : (splitOnce '.' (if a.scale = 0 then i else i ++ '.' :: f)).getD
      ((if a.scale = 0 then i else i ++ '.' :: f), []) = (i, f) := by
    by_cases h0 : a.scale = 0
    · rw [if_pos h0, splitOnce_none hdot]
      have : f = [] := List.eq_nil_of_length_eq_zero (by omega)
      simp [this]
    · rw [if_neg h0, splitOnce_append hdot]; rfl
  have hne : (if a.scale = 0 then i else i ++ '.' :: f) ≠ [] := by split <;> simp [hi]
  have hall : ∀ c ∈ i ++ f, c.isDigit = true := by
    intro c hc
    rcases List.mem_append.1 hc with h | h
    · exact hdi c h
    · exact hdf c h
  have hparse : parseInt (i ++ f) = some (a.coeff.natAbs : Int) := by
    unfold parseInt
    rw [signOf_digits hall]
    simp only
    rw [if_neg (by simp [hi, allDigits_iff.2 hall]), hval]
    rfl
  unfold parse
  simp only
  rw [trim_id hws, hsign]
  simp only
  rw [if_neg hne, hsplit]
  simp only
  rw [if_neg (by simp [hi]), if_neg (by simp [allDigits_iff.2 hdi, allDigits_iff.2 hdf]), hparse]
  simp only [hlen, Option.some.injEq]
  cases a with
  | mk c s =>
    simp only
    congr 1
    by_cases hn : c < 0
    · simp only [hn, decide_true, if_true]; omega
    · simp only [hn, decide_false, Bool.false_eq_true, if_false]; omega

end Decimal

/-! ## Money -/

/-- `struct Currency` (money.rs:19-23); equality is by code (money.rs:25-29). -/
structure Currency where
  code : List Char
  scale : Nat
deriving DecidableEq

/-- `struct Money` (money.rs:90-94). -/
structure Money where
  amount : Decimal
  currency : Currency
deriving DecidableEq

namespace Money
/-- `Money::of` (money.rs:99-101). -/
def of (amount : Decimal) (c : Currency) : Money := ⟨amount.rescale c.scale .halfEven, c⟩
/-- `Money::add` (money.rs:104-109). -/
def add (a b : Money) : Option Money :=
  if a.currency.code ≠ b.currency.code then none else some ⟨a.amount.add b.amount, a.currency⟩
/-- `Money::sub` (money.rs:112-117). -/
def sub (a b : Money) : Option Money :=
  if a.currency.code ≠ b.currency.code then none else some ⟨a.amount.sub b.amount, a.currency⟩
/-- `Money::scale_int` (money.rs:120-122). -/
def scaleInt (a : Money) (k : Int) : Money := of (a.amount.mul (Decimal.ofInt k)) a.currency
/-- `Money::ratio` (money.rs:126-131). -/
def ratio (a b : Money) : Option Rational :=
  if a.currency.code ≠ b.currency.code then none else a.amount.toRational.div b.amount.toRational
/-- `impl PartialEq for Money` (money.rs:134-139). -/
def beq (a b : Money) : Bool :=
  decide (a.currency.code = b.currency.code) && decide (a.amount.toRational = b.amount.toRational)
/-- `RateTable::convert` (money.rs:184-190); the table is a partial map from codes to rates. -/
def convert (rate : List Char → Option Rational) (m : Money) (target : Currency) : Option Money :=
  match rate m.currency.code, rate target.code with
  | some fromRate, some toRate =>
    ((m.amount.toRational.mul fromRate).div toRate).map
      (fun v => of (Decimal.fromRational v target.scale .halfEven) target)
  | _, _ => none
end Money

end Verif.Num
