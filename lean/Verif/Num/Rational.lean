import Verif.Common.Decimal
import Mathlib.Data.Rat.Lemmas
import Mathlib.Data.Rat.Floor
import Mathlib.Tactic.Linarith
import Mathlib.Tactic.FieldSimp
/-! # `Rational`, `Decimal`, `Money`, `Complex`, `Modular` — models of
`logicaffeine_base/src/numeric.rs:508-1445` and `money.rs`

From here on a `BigInt` is an `Int`: the theorems `C44_*` and `C45_*` show that every `BigInt` operation used
below computes exactly the `Int` operation written in its place (`div_rem` is `tdiv`/`tmod`, structural
equality is equality, `cmp` is `compare`, printing and parsing are the decimal numeral). -/
namespace Verif.Num

/-- The Euclid loop of `bigint_gcd` (numeric.rs:516-520); the fuel suffices by `gcdLoop_eq`. -/
def gcdLoop : Nat → Int → Int → Int
  | 0, a, _ => a
  | fuel + 1, a, b => if b = 0 then a else gcdLoop fuel b (a.tmod b)

/-- `bigint_gcd` (numeric.rs:513-522). -/
def bigintGcd (a b : Int) : Int := gcdLoop (b.natAbs + 1) |a| |b|

/-- `struct Rational` (numeric.rs:534-542). -/
structure Rational where
  num : Int
  den : Int
deriving DecidableEq

namespace Rational

/-- `Rational::new` (numeric.rs:547-563). -/
def new (num den : Int) : Option Rational :=
  if den = 0 then none
  else
    let p : Int × Int := if den < 0 then (-num, -den) else (num, den)
    if p.1 = 0 then some ⟨0, 1⟩
    else
      let g := bigintGcd p.1 p.2
      some ⟨p.1.tdiv g, p.2.tdiv g⟩

/-- `Rational::from_bigint`, `from_i64` (numeric.rs:566-572). -/
def ofInt (n : Int) : Rational := ⟨n, 1⟩
/-- `Rational::zero` (numeric.rs:579-581). -/
def zero : Rational := ⟨0, 1⟩
/-- `Rational::one` (numeric.rs:583-585). -/
def one : Rational := ofInt 1

/-- The `.expect(..)` on a `Rational::new`: a panic is modelled as the value `zero`; that it never happens
follows from the theorems, which give the exact value. -/
def expect (o : Option Rational) : Rational := o.getD zero

/-- `Rational::is_integer` (numeric.rs:596-598). -/
def isInteger (r : Rational) : Bool := decide (r.den = 1)
/-- `Rational::is_zero` (numeric.rs:600-602). -/
def isZero (r : Rational) : Bool := decide (r.num = 0)
/-- `Rational::is_negative` (numeric.rs:604-606). -/
def isNegative (r : Rational) : Bool := decide (r.num < 0)
/-- `Rational::to_bigint` (numeric.rs:614-620). -/
def toBigint (r : Rational) : Option Int := if r.isInteger then some r.num else none

/-- `Rational::floor` (numeric.rs:639-646). -/
def floor (r : Rational) : Int :=
  if r.num < 0 ∧ r.num.tmod r.den ≠ 0 then r.num.tdiv r.den - 1 else r.num.tdiv r.den
/-- `Rational::ceil` (numeric.rs:650-657). -/
def ceil (r : Rational) : Int :=
  if ¬ r.num < 0 ∧ r.num.tmod r.den ≠ 0 then r.num.tdiv r.den + 1 else r.num.tdiv r.den
/-- `Rational::round` (numeric.rs:661-671). -/
def round (r : Rational) : Int :=
  let mag := (|r.num| * 2 + r.den).tdiv (r.den * 2)
  if r.num < 0 then -mag else mag

/-- `Rational::negated` (numeric.rs:673-675). -/
def negated (r : Rational) : Rational := ⟨-r.num, r.den⟩
/-- `Rational::abs` (numeric.rs:677-679). -/
def abs (r : Rational) : Rational := ⟨|r.num|, r.den⟩
/-- `Rational::recip` (numeric.rs:682-684). -/
def recip (r : Rational) : Option Rational := new r.den r.num
/-- `Rational::add` (numeric.rs:686-691). -/
def add (a b : Rational) : Rational := expect (new (a.num * b.den + b.num * a.den) (a.den * b.den))
/-- `Rational::sub` (numeric.rs:693-697). -/
def sub (a b : Rational) : Rational := expect (new (a.num * b.den - b.num * a.den) (a.den * b.den))
/-- `Rational::mul` (numeric.rs:699-703). -/
def mul (a b : Rational) : Rational := expect (new (a.num * b.num) (a.den * b.den))
/-- `Rational::div` (numeric.rs:706-711). -/
def div (a b : Rational) : Option Rational := new (a.num * b.den) (a.den * b.num)
/-- `Rational::pow` (numeric.rs:715-730), `exp` in the range of `i32`. -/
def pow (a : Rational) (exp : Int) : Option Rational :=
  if exp ≥ 0 then some (expect (new (a.num ^ exp.toNat) (a.den ^ exp.toNat)))
  else if a.num = 0 then none
  else new (a.den ^ exp.natAbs) (a.num ^ exp.natAbs)
/-- `impl Ord for Rational` (numeric.rs:747-752). -/
def cmp (a b : Rational) : Ordering := compare (a.num * b.den) (b.num * a.den)

/-- The number denoted. -/
def toRat (r : Rational) : ℚ := (r.num : ℚ) / (r.den : ℚ)

/-- The documented invariant (numeric.rs:537-541). -/
structure Wf (r : Rational) : Prop where
  pos : 0 < r.den
  coprime : Nat.Coprime r.num.natAbs r.den.natAbs

/-! helper lemmas -/

theorem gcdLoop_eq {fuel : Nat} {a b : Int} (ha : 0 ≤ a) (hb : 0 ≤ b) (hf : b.natAbs < fuel) :
    gcdLoop fuel a b = Int.gcd a b := by
  induction fuel generalizing a b with
  | zero => omega
  | succ fuel ih =>
    rw [gcdLoop]
    by_cases h0 : b = 0
    · subst h0; simp [abs_of_nonneg ha]
    · rw [if_neg h0, Int.tmod_eq_emod_of_nonneg ha]
      have h1 := Int.emod_nonneg a h0
      have h2 := Int.emod_lt_of_pos a (by omega : 0 < b)
      rw [ih hb h1 (by omega)]
      rw [Int.gcd_comm a b]
      congr 1
      rw [Int.gcd_comm b (a % b), Int.gcd_emod, Int.gcd_comm]

theorem bigintGcd_eq (a b : Int) : bigintGcd a b = Int.gcd a b := by
  unfold bigintGcd
  rw [gcdLoop_eq (abs_nonneg a) (abs_nonneg b) (by rw [Int.natAbs_abs]; omega)]
  simp [Int.gcd, Int.natAbs_abs]

theorem new_zero (n : Int) : new n 0 = none := rfl

theorem new_spec {n d : Int} (hd : d ≠ 0) : ∃ r, new n d = some r ∧ r.Wf ∧ r.toRat = (n : ℚ) / d := by
  unfold new
  rw [if_neg hd]
  have key : ∀ n d : Int, 0 < d → ∃ r, (if n = 0 then some (⟨0, 1⟩ : Rational) else
      some ⟨n.tdiv (bigintGcd n d), d.tdiv (bigintGcd n d)⟩) = some r ∧ r.Wf ∧ r.toRat = (n : ℚ) / d := by
    intro n d hd
    by_cases hn : n = 0
    · subst hn
      exact ⟨⟨0, 1⟩, by simp, ⟨by decide, by decide⟩, by simp [toRat]⟩
    · rw [if_neg hn]
      refine ⟨_, rfl, ?_⟩
      rw [bigintGcd_eq]
      have hg : 0 < Int.gcd n d := Int.gcd_pos_of_ne_zero_left _ hn
      have e1 : n.tdiv (Int.gcd n d) = n / (Int.gcd n d) := Int.tdiv_eq_ediv_of_dvd (Int.gcd_dvd_left ..)
      have e2 : d.tdiv (Int.gcd n d) = d / (Int.gcd n d) := Int.tdiv_eq_ediv_of_dvd (Int.gcd_dvd_right ..)
      rw [e1, e2]
      have hco := Int.gcd_ediv_gcd_ediv_gcd_of_ne_zero_left (m := d) hn
      have hx : n / (Int.gcd n d) * (Int.gcd n d) = n := Int.ediv_mul_cancel (Int.gcd_dvd_left ..)
      have hy : d / (Int.gcd n d) * (Int.gcd n d) = d := Int.ediv_mul_cancel (Int.gcd_dvd_right ..)
      have hgz : (0:Int) < Int.gcd n d := by exact_mod_cast hg
      generalize n / (Int.gcd n d : Int) = x at *
      generalize d / (Int.gcd n d : Int) = y at *
      have hypos : 0 < y := by
        rcases lt_trichotomy y 0 with h | h | h
        · have := mul_neg_of_neg_of_pos h hgz; omega
        · rw [h] at hy; omega
        · exact h
      refine ⟨⟨hypos, hco⟩, ?_⟩
      have hgq : ((Int.gcd n d : Int) : ℚ) ≠ 0 := by exact_mod_cast hgz.ne'
      have hyq : (y : ℚ) ≠ 0 := by exact_mod_cast hypos.ne'
      show (x : ℚ) / y = n / d
      have h1 : (n : ℚ) = x * ((Int.gcd n d : Int) : ℚ) := by exact_mod_cast hx.symm
      have h2 : (d : ℚ) = y * ((Int.gcd n d : Int) : ℚ) := by exact_mod_cast hy.symm
      generalize ((Int.gcd n d : Int) : ℚ) = g at *
      rw [h1, h2, mul_div_mul_right _ _ hgq]
  by_cases hneg : d < 0
  · simp only [hneg, if_true]
    obtain ⟨r, r1, r2, r3⟩ := key (-n) (-d) (by omega)
    exact ⟨r, r1, r2, by rw [r3]; push_cast; rw [neg_div_neg_eq]⟩
  · simp only [hneg, if_false]
    exact key n d (by omega)

theorem Wf.den_ne {r : Rational} (h : r.Wf) : (r.den : ℚ) ≠ 0 := by
  have := h.pos; exact_mod_cast this.ne'

theorem Wf.num_eq {r : Rational} (h : r.Wf) : r.toRat.num = r.num :=
  Rat.num_div_eq_of_coprime h.pos h.coprime
theorem Wf.den_eq {r : Rational} (h : r.Wf) : (r.toRat.den : Int) = r.den :=
  Rat.den_div_eq_of_coprime h.pos h.coprime

theorem eq_of_toRat {a b : Rational} (ha : a.Wf) (hb : b.Wf) (h : a.toRat = b.toRat) : a = b := by
  have h1 := ha.num_eq; have h2 := ha.den_eq; have h3 := hb.num_eq; have h4 := hb.den_eq
  rw [h] at h1 h2
  cases a; cases b
  simp only at *
  congr 1 <;> omega

theorem expect_spec {n d : Int} (hd : d ≠ 0) : (expect (new n d)).Wf ∧ (expect (new n d)).toRat = (n : ℚ) / d := by
  obtain ⟨r, r1, r2, r3⟩ := new_spec (n := n) hd
  rw [r1]; exact ⟨r2, r3⟩

theorem wf_ofInt (n : Int) : (ofInt n).Wf := ⟨by simp [ofInt], by simp [ofInt]⟩
theorem toRat_ofInt (n : Int) : (ofInt n).toRat = n := by simp [ofInt, toRat]
theorem wf_zero : zero.Wf := wf_ofInt 0
@[simp] theorem toRat_zero : zero.toRat = 0 := by simp [zero, toRat]
@[simp] theorem toRat_one : one.toRat = 1 := by simp [one, ofInt, toRat]
theorem wf_one : one.Wf := wf_ofInt 1

theorem negated_spec {a : Rational} (h : a.Wf) : a.negated.Wf ∧ a.negated.toRat = -a.toRat := by
  refine ⟨⟨h.pos, by simpa [negated] using h.coprime⟩, ?_⟩
  simp [negated, toRat, neg_div]
theorem abs_spec {a : Rational} (h : a.Wf) : a.abs.Wf ∧ a.abs.toRat = |a.toRat| := by
  refine ⟨⟨h.pos, by simpa [abs, Int.natAbs_abs] using h.coprime⟩, ?_⟩
  have : (0 : ℚ) < a.den := by exact_mod_cast h.pos
  simp [abs, toRat, abs_div, abs_of_pos this]
theorem add_spec {a b : Rational} (ha : a.Wf) (hb : b.Wf) : (a.add b).Wf ∧ (a.add b).toRat = a.toRat + b.toRat := by
  have ⟨h1, h2⟩ := expect_spec (n := a.num * b.den + b.num * a.den) (mul_pos ha.pos hb.pos).ne'
  refine ⟨h1, ?_⟩
  unfold add
  rw [h2]
  have := ha.den_ne; have := hb.den_ne
  simp only [toRat]; push_cast; field_simp
theorem sub_spec {a b : Rational} (ha : a.Wf) (hb : b.Wf) : (a.sub b).Wf ∧ (a.sub b).toRat = a.toRat - b.toRat := by
  have ⟨h1, h2⟩ := expect_spec (n := a.num * b.den - b.num * a.den) (mul_pos ha.pos hb.pos).ne'
  refine ⟨h1, ?_⟩
  unfold sub
  rw [h2]
  have := ha.den_ne; have := hb.den_ne
  simp only [toRat]; push_cast; field_simp
theorem mul_spec {a b : Rational} (ha : a.Wf) (hb : b.Wf) : (a.mul b).Wf ∧ (a.mul b).toRat = a.toRat * b.toRat := by
  have ⟨h1, h2⟩ := expect_spec (n := a.num * b.num) (mul_pos ha.pos hb.pos).ne'
  refine ⟨h1, ?_⟩
  unfold mul
  rw [h2]
  have := ha.den_ne; have := hb.den_ne
  simp only [toRat]; push_cast; field_simp

theorem num_eq_zero {a : Rational} (ha : a.Wf) : a.num = 0 ↔ a.toRat = 0 := by
  have := ha.den_ne
  simp [toRat, this]

theorem div_spec {a b : Rational} (ha : a.Wf) (hb : b.Wf) :
    (b.toRat = 0 → a.div b = none) ∧ (b.toRat ≠ 0 → ∃ r, a.div b = some r ∧ r.Wf ∧ r.toRat = a.toRat / b.toRat) := by
  constructor
  · intro h
    rw [← num_eq_zero hb] at h
    simp [div, h, new_zero]
  · intro h
    have hn : b.num ≠ 0 := fun hc => h ((num_eq_zero hb).1 hc)
    obtain ⟨r, r1, r2, r3⟩ := new_spec (n := a.num * b.den) (mul_ne_zero ha.pos.ne' hn)
    refine ⟨r, r1, r2, ?_⟩
    rw [r3]
    have := ha.den_ne; have := hb.den_ne
    have hnq : (b.num : ℚ) ≠ 0 := by exact_mod_cast hn
    simp only [toRat]; push_cast; field_simp

theorem recip_spec {a : Rational} (ha : a.Wf) :
    (a.toRat = 0 → a.recip = none) ∧ (a.toRat ≠ 0 → ∃ r, a.recip = some r ∧ r.Wf ∧ r.toRat = a.toRat⁻¹) := by
  constructor
  · intro h
    rw [← num_eq_zero ha] at h
    simp [recip, h, new_zero]
  · intro h
    have hn : a.num ≠ 0 := fun hc => h ((num_eq_zero ha).1 hc)
    obtain ⟨r, r1, r2, r3⟩ := new_spec (n := a.den) hn
    exact ⟨r, r1, r2, by rw [r3, toRat, inv_div]⟩

theorem pow_spec {a : Rational} (ha : a.Wf) (e : Int) :
    (a.toRat = 0 ∧ e < 0 → a.pow e = none) ∧
    (¬ (a.toRat = 0 ∧ e < 0) → ∃ r, a.pow e = some r ∧ r.Wf ∧ r.toRat = a.toRat ^ e) := by
  unfold pow
  constructor
  · rintro ⟨h, he⟩
    rw [if_neg (by omega), if_pos ((num_eq_zero ha).2 h)]
  · intro h
    by_cases he : e ≥ 0
    · rw [if_pos he]
      have ⟨s1, s2⟩ := expect_spec (n := a.num ^ e.toNat) (pow_pos ha.pos e.toNat).ne'
      refine ⟨_, rfl, s1, ?_⟩
      rw [s2]
      obtain ⟨k, rfl⟩ := Int.eq_ofNat_of_zero_le he
      simp [toRat, div_pow]
    · rw [if_neg he]
      have hn : a.num ≠ 0 := fun hc => h ⟨(num_eq_zero ha).1 hc, by omega⟩
      rw [if_neg hn]
      obtain ⟨r, r1, r2, r3⟩ := new_spec (n := a.den ^ e.natAbs) (pow_ne_zero e.natAbs hn)
      refine ⟨r, r1, r2, ?_⟩
      rw [r3]
      have e2 : e = -(e.natAbs : Int) := by omega
      generalize e.natAbs = k at *
      subst e2
      simp [toRat, zpow_neg, div_pow]

theorem cmp_spec {a b : Rational} (ha : a.Wf) (hb : b.Wf) : a.cmp b = compare a.toRat b.toRat := by
  have h1 : (0 : ℚ) < a.den := by exact_mod_cast ha.pos
  have h2 : (0 : ℚ) < b.den := by exact_mod_cast hb.pos
  have hlt : a.num * b.den < b.num * a.den ↔ a.toRat < b.toRat := by
    rw [toRat, toRat, div_lt_div_iff₀ h1 h2]; exact_mod_cast Iff.rfl
  have hgt : b.num * a.den < a.num * b.den ↔ b.toRat < a.toRat := by
    rw [toRat, toRat, div_lt_div_iff₀ h2 h1]; exact_mod_cast Iff.rfl
  unfold cmp
  rcases lt_trichotomy (a.num * b.den) (b.num * a.den) with h | h | h
  · rw [compare_lt_iff_lt.2 h, compare_lt_iff_lt.2 (hlt.1 h)]
  · rw [compare_eq_iff_eq.2 h]
    symm; rw [compare_eq_iff_eq]
    have n1 : ¬ a.toRat < b.toRat := fun hc => by have := hlt.2 hc; omega
    have n2 : ¬ b.toRat < a.toRat := fun hc => by have := hgt.2 hc; omega
    exact le_antisymm (not_lt.1 n2) (not_lt.1 n1)
  · rw [compare_gt_iff_gt.2 h, compare_gt_iff_gt.2 (hgt.1 h)]

/-- Truncated division of numerator by denominator splits the value into an integer part and a fraction. -/
theorem split_spec {r : Rational} (h : r.Wf) : ∃ t : ℚ, r.toRat = (r.num.tdiv r.den : Int) + t ∧ |t| < 1 ∧
    (r.num < 0 → t ≤ 0 ∧ (r.num.tdiv r.den) ≤ 0) ∧ (¬ r.num < 0 → 0 ≤ t ∧ 0 ≤ (r.num.tdiv r.den)) ∧
    (r.num.tmod r.den = 0 ↔ t = 0) ∧ t = (r.num.tmod r.den : Int) / (r.den : ℚ) := by
  have hd : (0 : ℚ) < r.den := by exact_mod_cast h.pos
  refine ⟨(r.num.tmod r.den : Int) / (r.den : ℚ), ?_, ?_, ?_, ?_, ?_, rfl⟩
  · have := Int.mul_tdiv_add_tmod r.num r.den
    have hq : (r.num : ℚ) = r.den * (r.num.tdiv r.den : Int) + (r.num.tmod r.den : Int) := by
      exact_mod_cast this.symm
    rw [toRat, eq_comm]
    field_simp
    linarith
  · rw [abs_div, abs_of_pos hd, div_lt_one hd]
    have h1 := Int.natAbs_tmod r.num r.den
    have h2 : r.num.natAbs % r.den.natAbs < r.den.natAbs := Nat.mod_lt _ (by have := h.pos; omega)
    have h3 : |r.num.tmod r.den| < r.den := by have := h.pos; rw [Int.abs_eq_natAbs]; omega
    exact_mod_cast h3
  · intro hn
    have e : r.num.tmod r.den = -((-r.num).tmod r.den) := by rw [Int.neg_tmod, neg_neg]
    have e2 : r.num.tdiv r.den = -((-r.num).tdiv r.den) := by rw [Int.neg_tdiv, neg_neg]
    have h1 := Int.tmod_nonneg r.den (by omega : 0 ≤ -r.num)
    have h2 := Int.tdiv_nonneg (by omega : 0 ≤ -r.num) h.pos.le
    refine ⟨div_nonpos_of_nonpos_of_nonneg ?_ hd.le, by omega⟩
    have : r.num.tmod r.den ≤ 0 := by omega
    exact_mod_cast this
  · intro hn
    have h1 := Int.tmod_nonneg r.den (by omega : 0 ≤ r.num)
    have h2 := Int.tdiv_nonneg (by omega : 0 ≤ r.num) h.pos.le
    exact ⟨div_nonneg (by exact_mod_cast h1) hd.le, h2⟩
  · constructor
    · intro h0; rw [h0]; simp
    · intro h0
      rw [div_eq_zero_iff] at h0
      rcases h0 with h0 | h0
      · exact_mod_cast h0
      · exact absurd h0 hd.ne'

theorem floor_spec {r : Rational} (h : r.Wf) : r.floor = ⌊r.toRat⌋ := by
  obtain ⟨t, e, ht, hn, hp, hz, _⟩ := split_spec h
  rw [abs_lt] at ht
  symm
  rw [Int.floor_eq_iff, e]
  unfold floor
  by_cases hc : r.num < 0 ∧ r.num.tmod r.den ≠ 0
  · rw [if_pos hc]
    have h1 := hn hc.1
    have h2 : t ≠ 0 := fun h0 => hc.2 (hz.2 h0)
    have h3 : t < 0 := lt_of_le_of_ne h1.1 h2
    push_cast; constructor <;> linarith
  · rw [if_neg hc]
    by_cases h0 : r.num < 0
    · have : t = 0 := hz.1 (by by_contra h5; exact hc ⟨h0, h5⟩)
      rw [this]; constructor <;> linarith
    · have := hp h0; constructor <;> linarith

theorem ceil_spec {r : Rational} (h : r.Wf) : r.ceil = ⌈r.toRat⌉ := by
  obtain ⟨t, e, ht, hn, hp, hz, _⟩ := split_spec h
  rw [abs_lt] at ht
  symm
  rw [Int.ceil_eq_iff, e]
  unfold ceil
  by_cases hc : ¬ r.num < 0 ∧ r.num.tmod r.den ≠ 0
  · rw [if_pos hc]
    have h1 := hp hc.1
    have h2 : t ≠ 0 := fun h0 => hc.2 (hz.2 h0)
    have h3 : 0 < t := lt_of_le_of_ne h1.1 (Ne.symm h2)
    push_cast; constructor <;> linarith
  · rw [if_neg hc]
    by_cases h0 : r.num < 0
    · have := hn h0; constructor <;> linarith
    · have : t = 0 := hz.1 (by by_contra h5; exact hc ⟨h0, h5⟩)
      rw [this]; constructor <;> linarith

theorem round_spec {r : Rational} (h : r.Wf) :
    r.round = if r.toRat < 0 then -⌊|r.toRat| + 1/2⌋ else ⌊|r.toRat| + 1/2⌋ := by
  have hd : (0 : ℚ) < r.den := by exact_mod_cast h.pos
  have hs : r.toRat < 0 ↔ r.num < 0 := by
    rw [toRat, div_lt_iff₀ hd, zero_mul]; exact_mod_cast Iff.rfl
  have hm : (|r.num| * 2 + r.den).tdiv (r.den * 2) = ⌊|r.toRat| + 1/2⌋ := by
    rw [Int.tdiv_eq_ediv_of_nonneg (by have := abs_nonneg r.num; have := h.pos; omega)]
    obtain ⟨k, hk⟩ := Int.eq_ofNat_of_zero_le (by have := h.pos; omega : 0 ≤ r.den * 2)
    rw [hk]
    have e : |r.toRat| + 1/2 = ((|r.num| * 2 + r.den : Int) : ℚ) / ((k : Nat) : ℚ) := by
      have hkq : ((k : Nat) : ℚ) = r.den * 2 := by
        have : ((k : Nat) : Int) = r.den * 2 := hk.symm
        exact_mod_cast this
      rw [hkq, toRat, abs_div, abs_of_pos hd]
      push_cast
      field_simp
    rw [e, Rat.floor_intCast_div_natCast]
  unfold round
  simp only [hm, hs]

end Rational
end Verif.Num
