import Verif.Num.Decimal
import Verif.Num.Complex
import Verif.Num.Float
import Mathlib.Data.ZMod.Basic
import Verif.Props.BigInt
/-! # Properties C46–C52: rationals, decimals, money, complex numbers, residues, floats, hashing

Specifications: Lean's `ℚ`, Mathlib's `ℂ`, integer congruence, and IEEE-754's reading of the bit fields. -/
namespace Verif.Props
open Verif Verif.Num

/-! ## C46 -/

/-- Rationals a program can obtain through the public API. -/
inductive RBuilt : Rational → Prop
  | new {n d : Int} {r} (h : Rational.new n d = some r) : RBuilt r
  | ofInt (n : Int) : RBuilt (.ofInt n)
  | zero : RBuilt .zero
  | negated {a} (h : RBuilt a) : RBuilt a.negated
  | abs {a} (h : RBuilt a) : RBuilt a.abs
  | add {a b} (ha : RBuilt a) (hb : RBuilt b) : RBuilt (a.add b)
  | sub {a b} (ha : RBuilt a) (hb : RBuilt b) : RBuilt (a.sub b)
  | mul {a b} (ha : RBuilt a) (hb : RBuilt b) : RBuilt (a.mul b)
  | div {a b r} (ha : RBuilt a) (hb : RBuilt b) (h : a.div b = some r) : RBuilt r
  | recip {a r} (ha : RBuilt a) (h : a.recip = some r) : RBuilt r
  | pow {a r} {e : Int} (ha : RBuilt a) (h : a.pow e = some r) : RBuilt r
  | parse {ws s r} (h : Rational.parse ws s = some r) : RBuilt r

/-- The rational number denoted. -/
def ratValue (r : Rational) : ℚ := (r.num : ℚ) / (r.den : ℚ)

theorem new_wf {n d : Int} {r} (h : Rational.new n d = some r) : r.Wf := by
  by_cases hd : d = 0
  · subst hd; cases h
  · obtain ⟨r', h1, h2, _⟩ := Rational.new_spec (n := n) hd
    rw [h1] at h; cases h; exact h2

theorem rbuilt_wf {r : Rational} (h : RBuilt r) : r.Wf := by
  induction h with
  | new h => exact new_wf h
  | ofInt n => exact Rational.wf_ofInt n
  | zero => exact Rational.wf_zero
  | negated _ ih => exact (Rational.negated_spec ih).1
  | abs _ ih => exact (Rational.abs_spec ih).1
  | add _ _ i1 i2 => exact (Rational.add_spec i1 i2).1
  | sub _ _ i1 i2 => exact (Rational.sub_spec i1 i2).1
  | mul _ _ i1 i2 => exact (Rational.mul_spec i1 i2).1
  | div _ _ h _ _ => exact new_wf h
  | recip _ h _ => exact new_wf h
  | @pow a r e _ h i1 =>
    have ⟨p1, p2⟩ := Rational.pow_spec i1 e
    by_cases hc : a.toRat = 0 ∧ e < 0
    · rw [p1 hc] at h; cases h
    · obtain ⟨r', e1, e2, _⟩ := p2 hc
      rw [e1] at h; cases h; exact e2
  | @parse ws s r h =>
    unfold Rational.parse at h
    simp only at h
    split at h
    · split at h
      · cases h
      · split at h
        · cases h
        · exact new_wf h
    · cases hp : parseInt (trim ws s) with
      | none => rw [hp] at h; cases h
      | some n => rw [hp] at h; cases h; exact Rational.wf_ofInt n

/-- Every rational is in lowest terms with a positive denominator. -/
theorem C46_canonical {r : Rational} (h : RBuilt r) : 0 < r.den ∧ Nat.gcd r.num.natAbs r.den.natAbs = 1 :=
  ⟨(rbuilt_wf h).pos, (rbuilt_wf h).coprime⟩

/-- Structural equality is equality of the numbers. -/
theorem C46_eq_iff {a b : Rational} (ha : RBuilt a) (hb : RBuilt b) : a = b ↔ ratValue a = ratValue b :=
  ⟨fun h => by rw [h], fun h => Rational.eq_of_toRat (rbuilt_wf ha) (rbuilt_wf hb) h⟩

/-- `new` refuses exactly the zero denominator, and otherwise is the quotient. -/
theorem C46_new (n d : Int) : (d = 0 → Rational.new n d = none) ∧
    (d ≠ 0 → ∃ r, Rational.new n d = some r ∧ ratValue r = (n : ℚ) / d) := by
  constructor
  · rintro rfl; rfl
  · intro h; obtain ⟨r, h1, _, h2⟩ := Rational.new_spec (n := n) h; exact ⟨r, h1, h2⟩

theorem C46_ofInt (n : Int) : ratValue (.ofInt n) = n := Rational.toRat_ofInt n
theorem C46_negated {a : Rational} (h : RBuilt a) : ratValue a.negated = -ratValue a := (Rational.negated_spec (rbuilt_wf h)).2
theorem C46_abs {a : Rational} (h : RBuilt a) : ratValue a.abs = |ratValue a| := (Rational.abs_spec (rbuilt_wf h)).2
theorem C46_add {a b : Rational} (ha : RBuilt a) (hb : RBuilt b) : ratValue (a.add b) = ratValue a + ratValue b :=
  (Rational.add_spec (rbuilt_wf ha) (rbuilt_wf hb)).2
theorem C46_sub {a b : Rational} (ha : RBuilt a) (hb : RBuilt b) : ratValue (a.sub b) = ratValue a - ratValue b :=
  (Rational.sub_spec (rbuilt_wf ha) (rbuilt_wf hb)).2
theorem C46_mul {a b : Rational} (ha : RBuilt a) (hb : RBuilt b) : ratValue (a.mul b) = ratValue a * ratValue b :=
  (Rational.mul_spec (rbuilt_wf ha) (rbuilt_wf hb)).2
theorem C46_div {a b : Rational} (ha : RBuilt a) (hb : RBuilt b) : (ratValue b = 0 → a.div b = none) ∧
    (ratValue b ≠ 0 → ∃ r, a.div b = some r ∧ ratValue r = ratValue a / ratValue b) := by
  have ⟨h1, h2⟩ := Rational.div_spec (rbuilt_wf ha) (rbuilt_wf hb)
  exact ⟨h1, fun h => let ⟨r, e1, _, e2⟩ := h2 h; ⟨r, e1, e2⟩⟩
theorem C46_recip {a : Rational} (ha : RBuilt a) : (ratValue a = 0 → a.recip = none) ∧
    (ratValue a ≠ 0 → ∃ r, a.recip = some r ∧ ratValue r = (ratValue a)⁻¹) := by
  have ⟨h1, h2⟩ := Rational.recip_spec (rbuilt_wf ha)
  exact ⟨h1, fun h => let ⟨r, e1, _, e2⟩ := h2 h; ⟨r, e1, e2⟩⟩
theorem C46_pow {a : Rational} (ha : RBuilt a) (e : Int) : (ratValue a = 0 ∧ e < 0 → a.pow e = none) ∧
    (¬ (ratValue a = 0 ∧ e < 0) → ∃ r, a.pow e = some r ∧ ratValue r = ratValue a ^ e) := by
  have ⟨h1, h2⟩ := Rational.pow_spec (rbuilt_wf ha) e
  exact ⟨h1, fun h => let ⟨r, e1, _, e2⟩ := h2 h; ⟨r, e1, e2⟩⟩
/-- The order is the order of the numbers. -/
theorem C46_cmp {a b : Rational} (ha : RBuilt a) (hb : RBuilt b) : a.cmp b = compare (ratValue a) (ratValue b) :=
  Rational.cmp_spec (rbuilt_wf ha) (rbuilt_wf hb)
/-- `is_integer`/`to_bigint` recognise exactly the integers. -/
theorem C46_to_bigint {a : Rational} (ha : RBuilt a) (n : Int) : a.toBigint = some n ↔ ratValue a = n := by
  have h := rbuilt_wf ha
  unfold Rational.toBigint Rational.isInteger
  constructor
  · intro hx
    by_cases hd : a.den = 1
    · simp only [hd, decide_true, if_true, Option.some.injEq] at hx
      simp [ratValue, hd, hx]
    · simp [hd] at hx
  · intro hx
    have : a = Rational.ofInt n := (C46_eq_iff ha (.ofInt n)).2 (by rw [hx, C46_ofInt])
    rw [this]; rfl
theorem C46_floor {a : Rational} (ha : RBuilt a) : a.floor = ⌊ratValue a⌋ := Rational.floor_spec (rbuilt_wf ha)
theorem C46_ceil {a : Rational} (ha : RBuilt a) : a.ceil = ⌈ratValue a⌉ := Rational.ceil_spec (rbuilt_wf ha)
/-- `round` is a nearest integer, ties away from zero. -/
theorem C46_round {a : Rational} (ha : RBuilt a) : |ratValue a - a.round| ≤ 1 / 2 ∧
    (|ratValue a - a.round| = 1 / 2 → |ratValue a| ≤ |(a.round : ℚ)|) := by
  have h : a.round = if ratValue a < 0 then -⌊|ratValue a| + 1/2⌋ else ⌊|ratValue a| + 1/2⌋ :=
    Rational.round_spec (rbuilt_wf ha)
  generalize ratValue a = x at h
  rw [h]
  have f1 := Int.floor_le (|x| + 1/2)
  have f2 := Int.lt_floor_add_one (|x| + 1/2)
  have f3 : 0 ≤ ⌊|x| + 1/2⌋ := Int.floor_nonneg.2 (by have := abs_nonneg x; linarith)
  have f3' : (0 : ℚ) ≤ (⌊|x| + 1/2⌋ : Int) := by exact_mod_cast f3
  generalize ⌊|x| + 1/2⌋ = n at *
  by_cases hx : x < 0
  · rw [if_pos hx]
    rw [abs_of_neg hx] at f1 f2 ⊢
    push_cast
    rw [abs_neg, abs_of_nonneg f3', sub_neg_eq_add]
    constructor
    · rw [abs_le]; constructor <;> linarith
    · intro he
      rcases abs_cases (x + n) with ⟨e, _⟩ | ⟨e, _⟩ <;> linarith
  · rw [if_neg hx]
    rw [abs_of_nonneg (not_lt.1 hx)] at f1 f2 ⊢
    rw [abs_of_nonneg f3']
    constructor
    · rw [abs_le]; constructor <;> linarith
    · intro he
      rcases abs_cases (x - n) with ⟨e, _⟩ | ⟨e, _⟩ <;> linarith
/-- Printing and reading back is the identity. -/
theorem C46_text_roundtrip {ws : Char → Bool} (hw : NumeralChars ws) {a : Rational} (ha : RBuilt a) :
    Rational.parse ws a.display = some a := Rational.parse_display hw (rbuilt_wf ha)

/-- The numeral reader of `BigInt` used by these parsers computes `parseInt` on values. -/
theorem C45_parse_int (s : List Char) : (BigInt.parseDecimal s).map value = parseInt s := by
  have ⟨h1, h2⟩ := BigInt.parse_spec s
  have hs : BigInt.splitSign s = signOf s := by unfold BigInt.splitSign signOf; rfl
  rw [hs] at h1 h2
  unfold parseInt
  simp only
  by_cases hc : (signOf s).2 = [] ∨ ∃ c ∈ (signOf s).2, c.isDigit = false
  · rw [h1 hc]
    rw [if_pos]
    · rfl
    · rcases hc with hc | ⟨c, hc, hd⟩
      · exact Or.inl hc
      · right; rw [allDigits_iff]; intro hall; rw [hall c hc] at hd; cases hd
  · simp only [not_or, not_exists, not_and, Bool.not_eq_false] at hc
    obtain ⟨r, r1, _, r3⟩ := h2 hc.1 hc.2
    rw [if_neg (by simp [hc.1, allDigits_iff.2 hc.2]), r1]
    simp only [Option.map_some, value_eq, r3]

example : RBuilt ⟨-1, 2⟩ := .new (n := 3) (d := -6) (by decide)
example : Rational.round ⟨-5, 2⟩ = -3 ∧ Rational.floor ⟨-5, 2⟩ = -3 ∧ Rational.ceil ⟨-5, 2⟩ = -2 := by decide
/-- The whitespace assumptions are satisfiable: ASCII blanks. -/
def asciiWs (c : Char) : Bool := c = ' ' || c = '\t' || c = '\n' || c = '\r'
theorem asciiWs_digit (c : Char) (h : c.isDigit = true) : asciiWs c = false := by
  unfold asciiWs
  rcases c with ⟨v, hv⟩
  simp only [Bool.or_eq_false_iff, decide_eq_false_iff_not]
  refine ⟨⟨⟨?_, ?_⟩, ?_⟩, ?_⟩ <;> rintro hc <;> rw [hc] at h <;> exact absurd h (by decide)
theorem asciiWs_ok : NumeralChars asciiWs := ⟨asciiWs_digit, by decide, by decide, by decide, by decide, by decide⟩
example : Rational.parse asciiWs (Rational.display ⟨-1, 2⟩) = some ⟨-1, 2⟩ :=
  C46_text_roundtrip asciiWs_ok (.new (n := 3) (d := -6) (by decide))

/-! ## C47 -/

/-- The number a decimal denotes. -/
def decValue (a : Decimal) : ℚ := (a.coeff : ℚ) / 10 ^ a.scale

/-- What each rounding mode promises about the integer `n` chosen for the number `x`. -/
inductive RoundsTo : RoundingMode → ℚ → Int → Prop
  | down {x : ℚ} {n : Int} (h : |x - n| < 1) (hz : |(n : ℚ)| ≤ |x|) : RoundsTo .down x n
  | up {x : ℚ} {n : Int} (h : |x - n| < 1) (hz : |x| ≤ |(n : ℚ)|) : RoundsTo .up x n
  | floor {x : ℚ} {n : Int} (h1 : (n : ℚ) ≤ x) (h2 : x < n + 1) : RoundsTo .floor x n
  | ceiling {x : ℚ} {n : Int} (h1 : (n : ℚ) - 1 < x) (h2 : x ≤ n) : RoundsTo .ceiling x n
  | halfUp {x : ℚ} {n : Int} (h : |x - n| ≤ 1 / 2) (ht : |x - n| = 1 / 2 → |x| ≤ |(n : ℚ)|) : RoundsTo .halfUp x n
  | halfDown {x : ℚ} {n : Int} (h : |x - n| ≤ 1 / 2) (ht : |x - n| = 1 / 2 → |(n : ℚ)| ≤ |x|) : RoundsTo .halfDown x n
  | halfEven {x : ℚ} {n : Int} (h : |x - n| ≤ 1 / 2) (ht : |x - n| = 1 / 2 → Even n) : RoundsTo .halfEven x n

theorem roundsTo_of {m x n} (h : Decimal.Rounds m x n) : RoundsTo m x n := by
  cases m with
  | down => exact .down h.1 h.2
  | up => exact .up h.1 h.2
  | floor => simp only [Decimal.Rounds] at h; subst h; exact .floor (Int.floor_le _) (Int.lt_floor_add_one _)
  | ceiling => simp only [Decimal.Rounds] at h; subst h; exact .ceiling (by have := Int.ceil_lt_add_one x; linarith) (Int.le_ceil _)
  | halfUp => exact .halfUp h.1 h.2
  | halfDown => exact .halfDown h.1 h.2
  | halfEven => exact .halfEven h.1 h.2

theorem C47_add (a b : Decimal) : decValue (a.add b) = decValue a + decValue b := Decimal.add_spec a b
theorem C47_sub (a b : Decimal) : decValue (a.sub b) = decValue a - decValue b := Decimal.sub_spec a b
theorem C47_mul (a b : Decimal) : decValue (a.mul b) = decValue a * decValue b := Decimal.mul_spec a b
/-- Rescaling gives a multiple of `10^-scale` selected by the mode, and adding digits is exact. -/
theorem C47_rescale (a : Decimal) (scale : Nat) (mode : RoundingMode) : (a.rescale scale mode).scale = scale ∧
    RoundsTo mode (decValue a * 10 ^ scale) (a.rescale scale mode).coeff ∧
    (a.scale ≤ scale → decValue (a.rescale scale mode) = decValue a) :=
  have ⟨h1, h2, h3⟩ := Decimal.rescale_spec a scale mode
  ⟨h1, roundsTo_of h2, h3⟩
/-- Division refuses exactly a zero divisor and rounds the exact quotient once. -/
theorem C47_div (a b : Decimal) (scale : Nat) (mode : RoundingMode) : (decValue b = 0 → a.div b scale mode = none) ∧
    (decValue b ≠ 0 → ∃ q, a.div b scale mode = some q ∧ q.scale = scale ∧
      RoundsTo mode (decValue a / decValue b * 10 ^ scale) q.coeff) :=
  have ⟨h1, h2⟩ := Decimal.div_spec a b scale mode
  ⟨h1, fun h => let ⟨q, e1, e2, e3⟩ := h2 h; ⟨q, e1, e2, roundsTo_of e3⟩⟩
/-- Conversion from a rational rounds once. -/
theorem C47_from_rational {r : Rational} (h : RBuilt r) (scale : Nat) (mode : RoundingMode) :
    (Decimal.fromRational r scale mode).scale = scale ∧
    RoundsTo mode (ratValue r * 10 ^ scale) (Decimal.fromRational r scale mode).coeff :=
  have ⟨h1, h2⟩ := Decimal.fromRational_spec (rbuilt_wf h) scale mode
  ⟨h1, roundsTo_of h2⟩
theorem C47_to_rational (a : Decimal) : ratValue a.toRational = decValue a := (Decimal.toRational_spec a).2
/-- Equality and order are by value, whatever the scales. -/
theorem C47_eq (a b : Decimal) : a.beq b = true ↔ decValue a = decValue b := Decimal.beq_spec a b
theorem C47_cmp (a b : Decimal) : a.cmp b = compare (decValue a) (decValue b) := Decimal.cmp_spec a b
/-- Printing and reading back restores coefficient and scale. -/
theorem C47_text_roundtrip {ws : Char → Bool} (hw : NumeralChars ws) (a : Decimal) :
    Decimal.parse ws a.display = some a := Decimal.parse_display hw a
/-- A rounding mode never leaves the choice open: at most one integer satisfies its contract. -/
theorem C47_mode_unique {m : RoundingMode} {x : ℚ} {n k : Int} (hn : RoundsTo m x n) (hk : RoundsTo m x k) : n = k := by
  have close : ∀ {a b : Int}, |(a : ℚ) - b| < 1 → a = b := by
    intro a b h
    have : |((a - b : Int) : ℚ)| < 1 := by push_cast; exact h
    rw [← Int.cast_abs] at this
    have h2 : |a - b| < 1 := by exact_mod_cast this
    have := abs_lt.1 h2
    omega
  have tie : ∀ {a b : Int}, |x - a| ≤ 1/2 → |x - b| ≤ 1/2 → a ≠ b →
      |x - a| = 1/2 ∧ |x - b| = 1/2 ∧ ((a : ℚ) + b = 2 * x) ∧ (a = b + 1 ∨ b = a + 1) := by
    intro a b ha hb hne
    have h1 : ¬ |(a : ℚ) - b| < 1 := fun h => hne (close h)
    rw [not_lt] at h1
    have ha' := abs_le.1 ha
    have hb' := abs_le.1 hb
    rcases le_abs.1 h1 with h | h
    · have ea : (a : ℚ) = x + 1/2 := by linarith
      have eb : (b : ℚ) = x - 1/2 := by linarith
      refine ⟨by rw [ea, abs_of_nonpos] <;> linarith, by rw [eb, abs_of_nonneg] <;> linarith, by linarith, Or.inl ?_⟩
      have : (a : ℚ) = ((b + 1 : Int) : ℚ) := by push_cast; linarith
      exact_mod_cast this
    · have ea : (a : ℚ) = x - 1/2 := by linarith
      have eb : (b : ℚ) = x + 1/2 := by linarith
      refine ⟨by rw [ea, abs_of_nonneg] <;> linarith, by rw [eb, abs_of_nonpos] <;> linarith, by linarith, Or.inr ?_⟩
      have : (b : ℚ) = ((a + 1 : Int) : ℚ) := by push_cast; linarith
      exact_mod_cast this
  have sgn : ∀ {a b : Int}, |x - a| ≤ 1/2 → |x - b| ≤ 1/2 → a ≠ b → |(a : ℚ)| = |(b : ℚ)| → False := by
    intro a b ha hb hne he
    obtain ⟨-, -, h3, h4⟩ := tie ha hb hne
    rw [← Int.cast_abs, ← Int.cast_abs] at he
    have : |a| = |b| := by exact_mod_cast he
    rcases abs_eq_abs.1 this with h | h <;> omega
  cases hn with
  | down h hz =>
    cases hk with
    | down h' hz' =>
      apply close
      rcases abs_lt.1 h with ⟨_, _⟩
      rcases abs_lt.1 h' with ⟨_, _⟩
      rw [abs_lt]
      rcases le_total 0 x with hx | hx
      · rw [abs_of_nonneg hx] at hz hz'
        have := abs_le.1 hz; have := abs_le.1 hz'
        constructor <;> linarith
      · rw [abs_of_nonpos hx] at hz hz'
        have := abs_le.1 hz; have := abs_le.1 hz'
        constructor <;> linarith
  | up h hz =>
    cases hk with
    | up h' hz' =>
      apply close
      have ⟨a1, a2⟩ := abs_lt.1 h
      have ⟨b1, b2⟩ := abs_lt.1 h'
      have hz0 : ∀ {k : Int}, |x - k| < 1 → |x| ≤ |(k : ℚ)| → (0 ≤ x → x ≤ k) ∧ (x ≤ 0 → (k : ℚ) ≤ x) := by
        intro k hk hle
        have ⟨c1, c2⟩ := abs_lt.1 hk
        constructor
        · intro hx
          rw [abs_of_nonneg hx] at hle
          rcases le_abs.1 hle with h | h
          · exact h
          · by_contra hc
            have : (k : ℚ) ≤ 0 := by linarith
            have k1 : k ≤ 0 := by exact_mod_cast this
            have k2 : (-1 : ℚ) < k := by linarith
            have k3 : -1 < k := by exact_mod_cast k2
            have : k = 0 := by omega
            subst this; simp at *; linarith
        · intro hx
          rw [abs_of_nonpos hx] at hle
          rcases le_abs.1 hle with h | h
          · by_contra hc
            have : (0 : ℚ) ≤ k := by linarith
            have k1 : 0 ≤ k := by exact_mod_cast this
            have k2 : (k : ℚ) < 1 := by linarith
            have k3 : k < 1 := by exact_mod_cast k2
            have : k = 0 := by omega
            subst this; simp at *; linarith
          · linarith
      have ⟨n1, n2⟩ := hz0 h hz
      have ⟨k1, k2⟩ := hz0 h' hz'
      rw [abs_lt]
      rcases le_total 0 x with hx | hx
      · have := n1 hx; have := k1 hx; constructor <;> linarith
      · have := n2 hx; have := k2 hx; constructor <;> linarith
  | floor h1 h2 =>
    cases hk with
    | floor h3 h4 => apply close; rw [abs_lt]; constructor <;> linarith
  | ceiling h1 h2 =>
    cases hk with
    | ceiling h3 h4 => apply close; rw [abs_lt]; constructor <;> linarith
  | halfUp h ht =>
    cases hk with
    | halfUp h' ht' =>
      by_contra hne
      obtain ⟨t1, t2, t3, t4⟩ := tie h h' hne
      have e1 := ht t1; have e2 := ht' t2
      rcases abs_cases x with ⟨u, _⟩ | ⟨u, _⟩ <;> rcases abs_cases (n : ℚ) with ⟨v, _⟩ | ⟨v, _⟩ <;>
        rcases abs_cases (k : ℚ) with ⟨w, _⟩ | ⟨w, _⟩ <;>
        first
          | (exact sgn h h' hne (by linarith))
          | (rcases t4 with t4 | t4 <;>
             (have t5 := congrArg (fun z : Int => (z : ℚ)) t4; push_cast at t5
              first
                | linarith
                | (have n0 : (-1 : ℚ) < n := by linarith
                   have n1 : (n : ℚ) < 1 := by linarith
                   have k0 : (-1 : ℚ) < k := by linarith
                   have k1 : (k : ℚ) < 1 := by linarith
                   have : -1 < n := by exact_mod_cast n0
                   have : n < 1 := by exact_mod_cast n1
                   have : -1 < k := by exact_mod_cast k0
                   have : k < 1 := by exact_mod_cast k1
                   omega)))
  | halfDown h ht =>
    cases hk with
    | halfDown h' ht' =>
      by_contra hne
      obtain ⟨t1, t2, t3, t4⟩ := tie h h' hne
      have e1 := ht t1; have e2 := ht' t2
      rcases t4 with t4 | t4 <;> (have t5 := congrArg (fun z : Int => (z : ℚ)) t4; push_cast at t5)
      · rcases abs_cases x with ⟨u, _⟩ | ⟨u, _⟩ <;> rcases abs_cases (n : ℚ) with ⟨v, _⟩ | ⟨v, _⟩ <;>
          rcases abs_cases (k : ℚ) with ⟨w, _⟩ | ⟨w, _⟩ <;> linarith
      · rcases abs_cases x with ⟨u, _⟩ | ⟨u, _⟩ <;> rcases abs_cases (n : ℚ) with ⟨v, _⟩ | ⟨v, _⟩ <;>
          rcases abs_cases (k : ℚ) with ⟨w, _⟩ | ⟨w, _⟩ <;> linarith
  | halfEven h ht =>
    cases hk with
    | halfEven h' ht' =>
      by_contra hne
      obtain ⟨t1, t2, _, t4⟩ := tie h h' hne
      have e1 := ht t1; have e2 := ht' t2
      rw [Int.even_iff] at e1 e2
      omega

example : (Decimal.mk 25 1).rescale 0 .halfEven = ⟨2, 0⟩ ∧ (Decimal.mk (-25) 1).rescale 0 .halfUp = ⟨-3, 0⟩ ∧
    (Decimal.mk 1 0).div ⟨3, 0⟩ 2 .up = some ⟨34, 2⟩ := by decide
example : (Decimal.mk 50 2).beq ⟨5, 1⟩ = true := by decide

/-! ## C48 -/

/-- Money obtainable through the public constructor and operations. The catalog fixes one scale per code. -/
inductive MBuilt (scaleOf : List Char → Nat) : Money → Prop
  | of {a c} (h : c.scale = scaleOf c.code) : MBuilt scaleOf (Money.of a c)
  | add {a b m} (ha : MBuilt scaleOf a) (hb : MBuilt scaleOf b) (h : a.add b = some m) : MBuilt scaleOf m
  | sub {a b m} (ha : MBuilt scaleOf a) (hb : MBuilt scaleOf b) (h : a.sub b = some m) : MBuilt scaleOf m
  | scaleInt {a} {k : Int} (ha : MBuilt scaleOf a) : MBuilt scaleOf (a.scaleInt k)
  | convert {rate a c m} (ha : MBuilt scaleOf a) (hc : c.scale = scaleOf c.code)
      (h : Money.convert rate a c = some m) : MBuilt scaleOf m

theorem convert_currency {rate : List Char → Option Rational} {a : Money} {c : Currency} {m : Money}
    (h : Money.convert rate a c = some m) : m.currency = c ∧ m.amount.scale = c.scale := by
  unfold Money.convert at h
  split at h
  · rename_i x y _ _
    cases hd : (a.amount.toRational.mul x).div y with
    | none => rw [hd] at h; cases h
    | some v => rw [hd] at h; cases h; exact ⟨rfl, (Decimal.rescale_spec _ _ _).1⟩
  · cases h

/-- Amounts stay at the currency's minor unit. -/
theorem C48_scale {scaleOf : List Char → Nat} {m : Money} (h : MBuilt scaleOf m) :
    m.amount.scale = m.currency.scale ∧ m.currency.scale = scaleOf m.currency.code := by
  induction h with
  | @of a c h => exact ⟨(Decimal.rescale_spec _ _ _).1, h⟩
  | @add a b m _ _ h i1 i2 =>
    unfold Money.add at h
    split at h
    · cases h
    · rename_i hc
      cases h
      simp only [not_not] at hc
      refine ⟨?_, i1.2⟩
      show max a.amount.scale b.amount.scale = _
      rw [i1.1, i2.1, i1.2, i2.2, hc, max_self]
  | @sub a b m _ _ h i1 i2 =>
    unfold Money.sub at h
    split at h
    · cases h
    · rename_i hc
      cases h
      simp only [not_not] at hc
      refine ⟨?_, i1.2⟩
      show max a.amount.scale b.amount.scale = _
      rw [i1.1, i2.1, i1.2, i2.2, hc, max_self]
  | scaleInt _ ih => exact ⟨(Decimal.rescale_spec _ _ _).1, ih.2⟩
  | @convert rate a c m _ hc h _ =>
    have ⟨h1, h2⟩ := convert_currency h
    rw [h1]; exact ⟨h2, hc⟩

/-- Addition succeeds exactly within one currency, and is exact. -/
theorem C48_add (a b : Money) : (a.currency.code ≠ b.currency.code → a.add b = none) ∧
    (a.currency.code = b.currency.code → ∃ m, a.add b = some m ∧ m.currency = a.currency ∧
      decValue m.amount = decValue a.amount + decValue b.amount) := by
  constructor
  · intro h; rw [Money.add, if_pos h]
  · intro h; exact ⟨⟨a.amount.add b.amount, a.currency⟩, by rw [Money.add, if_neg (by simpa using h)], rfl, C47_add _ _⟩
theorem C48_sub (a b : Money) : (a.currency.code ≠ b.currency.code → a.sub b = none) ∧
    (a.currency.code = b.currency.code → ∃ m, a.sub b = some m ∧ m.currency = a.currency ∧
      decValue m.amount = decValue a.amount - decValue b.amount) := by
  constructor
  · intro h; rw [Money.sub, if_pos h]
  · intro h; exact ⟨⟨a.amount.sub b.amount, a.currency⟩, by rw [Money.sub, if_neg (by simpa using h)], rfl, C47_sub _ _⟩
/-- Scaling by an integer is exact. -/
theorem C48_scale_int {scaleOf : List Char → Nat} {a : Money} (h : MBuilt scaleOf a) (k : Int) :
    (a.scaleInt k).currency = a.currency ∧ decValue (a.scaleInt k).amount = decValue a.amount * k := by
  refine ⟨rfl, ?_⟩
  have hs : (a.amount.mul (Decimal.ofInt k)).scale ≤ a.currency.scale := by
    show a.amount.scale + 0 ≤ _
    rw [(C48_scale h).1]; omega
  show decValue ((a.amount.mul (Decimal.ofInt k)).rescale a.currency.scale .halfEven) = _
  rw [(C47_rescale _ _ _).2.2 hs, C47_mul]
  simp [decValue, Decimal.ofInt]
/-- Building money rounds the amount once, to even, at the minor unit. -/
theorem C48_of (a : Decimal) (c : Currency) : (Money.of a c).currency = c ∧
    RoundsTo .halfEven (decValue a * 10 ^ c.scale) (Money.of a c).amount.coeff :=
  ⟨rfl, (C47_rescale a c.scale .halfEven).2.1⟩
/-- Equality of money. -/
theorem C48_eq (a b : Money) : a.beq b = true ↔
    a.currency.code = b.currency.code ∧ decValue a.amount = decValue b.amount := by
  unfold Money.beq
  rw [Bool.and_eq_true, decide_eq_true_eq, decide_eq_true_eq]
  have h : a.amount.toRational = b.amount.toRational ↔ decValue a.amount = decValue b.amount := by
    constructor
    · intro h; rw [← C47_to_rational, ← C47_to_rational, h]
    · intro h
      exact Rational.eq_of_toRat (Decimal.toRational_spec _).1 (Decimal.toRational_spec _).1
        (by rw [(Decimal.toRational_spec _).2, (Decimal.toRational_spec _).2]; exact h)
  rw [h]
/-- The ratio of two amounts is exact, within one currency and for a non-zero divisor. -/
theorem C48_ratio (a b : Money) : (a.currency.code ≠ b.currency.code ∨ decValue b.amount = 0 → a.ratio b = none) ∧
    (a.currency.code = b.currency.code → decValue b.amount ≠ 0 →
      ∃ r, a.ratio b = some r ∧ ratValue r = decValue a.amount / decValue b.amount) := by
  have ⟨a1, a2⟩ := Decimal.toRational_spec a.amount
  have ⟨b1, b2⟩ := Decimal.toRational_spec b.amount
  have ⟨d1, d2⟩ := Rational.div_spec a1 b1
  rw [a2, b2] at d2
  rw [b2] at d1
  constructor
  · rintro (h | h)
    · rw [Money.ratio, if_pos h]
    · unfold Money.ratio; split
      · rfl
      · exact d1 h
  · intro hc h
    obtain ⟨r, e1, _, e2⟩ := d2 h
    exact ⟨r, by rw [Money.ratio, if_neg (by simpa using hc), e1], e2⟩
/-- Conversion is the exact cross rate, rounded once to even at the target's minor unit; it is refused exactly
when a rate is missing or the target's rate is zero. -/
theorem C48_convert {rate : List Char → Option Rational} (hr : ∀ c r, rate c = some r → RBuilt r)
    (m : Money) (c : Currency) :
    (∀ x y, rate m.currency.code = some x → rate c.code = some y → ratValue y ≠ 0 →
      ∃ q, Money.convert rate m c = some q ∧ q.currency = c ∧ q.amount.scale = c.scale ∧
        RoundsTo .halfEven (decValue m.amount * ratValue x / ratValue y * 10 ^ c.scale) q.amount.coeff) ∧
    ((rate m.currency.code = none ∨ rate c.code = none ∨ ∃ y, rate c.code = some y ∧ ratValue y = 0) →
      Money.convert rate m c = none) := by
  constructor
  · intro x y hx hy h0
    have ⟨a1, a2⟩ := Decimal.toRational_spec m.amount
    have ⟨m1, m2⟩ := Rational.mul_spec a1 (rbuilt_wf (hr _ _ hx))
    obtain ⟨v, v1, v2, v3⟩ := (Rational.div_spec m1 (rbuilt_wf (hr _ _ hy))).2 h0
    have ⟨f1, f2⟩ := Decimal.fromRational_spec v2 c.scale .halfEven
    refine ⟨Money.of (Decimal.fromRational v c.scale .halfEven) c, ?_, rfl, (Decimal.rescale_spec _ _ _).1, ?_⟩
    · rw [Money.convert, hx, hy]; simp only; rw [v1]; rfl
    · have e : ((Decimal.fromRational v c.scale .halfEven).rescale c.scale .halfEven).coeff =
          (Decimal.fromRational v c.scale .halfEven).coeff := by
        unfold Decimal.rescale
        rw [if_pos (by rw [f1]), f1]
        simp [tenPow]
      show RoundsTo _ _ ((Decimal.fromRational v c.scale .halfEven).rescale c.scale .halfEven).coeff
      rw [e]
      rw [v3, m2, a2] at f2
      exact roundsTo_of f2
  · intro h
    unfold Money.convert
    split
    · rename_i x y hx hy
      rcases h with h | h | ⟨z, h, hz⟩
      · rw [h] at hx; cases hx
      · rw [h] at hy; cases hy
      · rw [h] at hy; cases hy
        have ⟨a1, _⟩ := Decimal.toRational_spec m.amount
        have ⟨m1, _⟩ := Rational.mul_spec a1 (rbuilt_wf (hr _ _ hx))
        rw [(Rational.div_spec m1 (rbuilt_wf (hr _ _ h))).1 hz]; rfl
    · rfl

example : (Money.of ⟨19999, 3⟩ ⟨['U', 'S', 'D'], 2⟩).amount = ⟨2000, 2⟩ := by decide
example : MBuilt (fun c => if c = ['J', 'P', 'Y'] then 0 else 2) (Money.of ⟨19999, 3⟩ ⟨['U', 'S', 'D'], 2⟩) := .of (by decide)
/-- 10.00 EUR at 1.10, to JPY at 0.0065, is 1692 JPY (1692.307…). -/
example : Money.convert (fun c => if c = ['E'] then some ⟨11, 10⟩ else some ⟨13, 2000⟩) ⟨⟨1000, 2⟩, ⟨['E'], 2⟩⟩ ⟨['J'], 0⟩
    = some ⟨⟨1692, 0⟩, ⟨['J'], 0⟩⟩ := by decide +kernel

/-! ## C49 -/

/-- The complex number denoted: `re + im·i`. -/
noncomputable def cValue (a : Num.Complex) : ℂ := (ratValue a.re : ℂ) + (ratValue a.im : ℂ) * _root_.Complex.I

theorem cValue_eq (a : Num.Complex) : cValue a = a.value := by
  apply _root_.Complex.ext <;> simp [cValue, Complex.value, ratValue, Rational.toRat]

/-- Complex numbers a program can build: any two rationals (`Complex::new`). -/
def CBuilt (a : Num.Complex) : Prop := RBuilt a.re ∧ RBuilt a.im
theorem cbuilt_wf {a : Num.Complex} (h : CBuilt a) : a.Wf := ⟨rbuilt_wf h.1, rbuilt_wf h.2⟩

theorem C49_eq_iff {a b : Num.Complex} (ha : CBuilt a) (hb : CBuilt b) : a = b ↔ cValue a = cValue b := by
  rw [cValue_eq, cValue_eq]
  exact ⟨fun h => by rw [h], Complex.eq_of_value (cbuilt_wf ha) (cbuilt_wf hb)⟩
theorem C49_add {a b : Num.Complex} (ha : CBuilt a) (hb : CBuilt b) : CBuilt (a.add b) ∧ cValue (a.add b) = cValue a + cValue b :=
  ⟨⟨.add ha.1 hb.1, .add ha.2 hb.2⟩, by simp only [cValue_eq]; exact (Complex.add_spec (cbuilt_wf ha) (cbuilt_wf hb)).2⟩
theorem C49_sub {a b : Num.Complex} (ha : CBuilt a) (hb : CBuilt b) : CBuilt (a.sub b) ∧ cValue (a.sub b) = cValue a - cValue b :=
  ⟨⟨.sub ha.1 hb.1, .sub ha.2 hb.2⟩, by simp only [cValue_eq]; exact (Complex.sub_spec (cbuilt_wf ha) (cbuilt_wf hb)).2⟩
theorem C49_negated {a : Num.Complex} (ha : CBuilt a) : CBuilt a.negated ∧ cValue a.negated = -cValue a :=
  ⟨⟨.negated ha.1, .negated ha.2⟩, by simp only [cValue_eq]; exact (Complex.negated_spec (cbuilt_wf ha)).2⟩
theorem C49_conjugate {a : Num.Complex} (ha : CBuilt a) : CBuilt a.conjugate ∧ cValue a.conjugate = ⟨(cValue a).re, -(cValue a).im⟩ :=
  ⟨⟨ha.1, .negated ha.2⟩, by simp only [cValue_eq]; exact (Complex.conjugate_spec (cbuilt_wf ha)).2⟩
theorem C49_mul {a b : Num.Complex} (ha : CBuilt a) (hb : CBuilt b) : CBuilt (a.mul b) ∧ cValue (a.mul b) = cValue a * cValue b :=
  ⟨⟨.sub (.mul ha.1 hb.1) (.mul ha.2 hb.2), .add (.mul ha.1 hb.2) (.mul ha.2 hb.1)⟩, by
    simp only [cValue_eq]; exact (Complex.mul_spec (cbuilt_wf ha) (cbuilt_wf hb)).2⟩
theorem C49_norm_sqr {a : Num.Complex} (ha : CBuilt a) : ((ratValue a.normSqr : ℚ) : ℝ) = _root_.Complex.normSq (cValue a) := by
  have := (Complex.normSqr_spec (cbuilt_wf ha)).2
  rw [cValue_eq]
  show ((a.normSqr.toRat : ℚ) : ℝ) = _
  rw [this]; simp [_root_.Complex.normSq, Complex.value]
theorem C49_recip {a : Num.Complex} (ha : CBuilt a) : (cValue a = 0 → a.recip = none) ∧
    (cValue a ≠ 0 → ∃ r, a.recip = some r ∧ cValue r = (cValue a)⁻¹) := by
  simp only [cValue_eq]
  have ⟨h1, h2⟩ := Complex.recip_spec (cbuilt_wf ha)
  exact ⟨h1, fun h => let ⟨r, e1, _, e2⟩ := h2 h; ⟨r, e1, e2⟩⟩
theorem C49_div {a b : Num.Complex} (ha : CBuilt a) (hb : CBuilt b) : (cValue b = 0 → a.div b = none) ∧
    (cValue b ≠ 0 → ∃ r, a.div b = some r ∧ cValue r = cValue a / cValue b) := by
  simp only [cValue_eq]
  have ⟨h1, h2⟩ := Complex.div_spec (cbuilt_wf ha) (cbuilt_wf hb)
  exact ⟨h1, fun h => let ⟨r, e1, _, e2⟩ := h2 h; ⟨r, e1, e2⟩⟩
/-- Integer powers, for every exponent but `i32::MIN`; only zero to a negative power is refused. -/
theorem C49_pow_partial {a : Num.Complex} (ha : CBuilt a) {e : Int} (he : -2 ^ 31 < e) (_ : e < 2 ^ 31) :
    (cValue a = 0 ∧ e < 0 → a.pow e = some none) ∧
    (¬ (cValue a = 0 ∧ e < 0) → ∃ r, a.pow e = some (some r) ∧ cValue r = cValue a ^ e) := by
  simp only [cValue_eq]
  have ⟨h1, h2⟩ := Complex.pow_spec (cbuilt_wf ha) (e := e) (by omega)
  exact ⟨h1, fun h => let ⟨r, e1, _, e2⟩ := h2 h; ⟨r, e1, e2⟩⟩
/-- The missing exponent: at `i32::MIN` the code overflows negating it, for every non-zero base (here `i`, whose
power is `1`). -/
theorem C49_pow_min_fails : Complex.pow Complex.i (-2147483648) = none := by decide
/-- Printing and reading back is the identity. -/
theorem C49_text_roundtrip {ws : Char → Bool} (hw : NumeralChars ws) {a : Num.Complex} (ha : CBuilt a) :
    Complex.parse ws a.display = some a := Complex.parse_display hw hw.plus hw.i (cbuilt_wf ha)

example : Complex.mul ⟨⟨1, 1⟩, ⟨1, 1⟩⟩ ⟨⟨1, 1⟩, ⟨-1, 1⟩⟩ = ⟨⟨2, 1⟩, ⟨0, 1⟩⟩ ∧
    Complex.pow ⟨⟨1, 1⟩, ⟨1, 1⟩⟩ (-2) = some (some ⟨⟨0, 1⟩, ⟨-1, 2⟩⟩) := by decide
example : Complex.parse asciiWs (Complex.display ⟨⟨-1, 2⟩, ⟨-3, 1⟩⟩) = some ⟨⟨-1, 2⟩, ⟨-3, 1⟩⟩ :=
  C49_text_roundtrip asciiWs_ok ⟨.new (n := -1) (d := 2) (by decide), .ofInt (-3)⟩

/-! ## C50 -/

/-- Residues a program can obtain through the public API. -/
inductive ModBuilt : Modular → Prop
  | new {v n : Int} {a} (h : Modular.new v n = some a) : ModBuilt a
  | add {a b r} (ha : ModBuilt a) (hb : ModBuilt b) (h : a.add b = some r) : ModBuilt r
  | sub {a b r} (ha : ModBuilt a) (hb : ModBuilt b) (h : a.sub b = some r) : ModBuilt r
  | mul {a b r} (ha : ModBuilt a) (hb : ModBuilt b) (h : a.mul b = some r) : ModBuilt r
  | negated {a} (ha : ModBuilt a) : ModBuilt a.negated
  | pow {a} {e : Nat} (ha : ModBuilt a) (h : e < 2 ^ 64) : ModBuilt (a.pow e)
  | inverse {a r} (ha : ModBuilt a) (h : a.inverse = some r) : ModBuilt r
  | div {a b r} (ha : ModBuilt a) (hb : ModBuilt b) (h : a.div b = some r) : ModBuilt r

/-- `r` is the residue of `v` in `ℤ/n`. -/
def IsResidue (r : Modular) (v n : Int) : Prop := r.modulus = n ∧ 0 ≤ r.value ∧ r.value < n ∧ r.value ≡ v [ZMOD n]

theorem mod_new {v n : Int} (hn : 0 < n) : ∃ r, Modular.new v n = some r ∧ IsResidue r v n := by
  obtain ⟨r, h1, h2, h3, h4⟩ := Modular.new_spec (v := v) hn
  exact ⟨r, h1, h3, h2.1, h3 ▸ h2.2, by rw [h4]; exact Int.mod_modEq _ _⟩

theorem new_some {v n : Int} {r} (h : Modular.new v n = some r) : 0 < n ∧ IsResidue r v n := by
  by_cases hn : 0 < n
  · obtain ⟨r', h1, h2⟩ := mod_new (v := v) hn
    rw [h1] at h; cases h; exact ⟨hn, h2⟩
  · rw [Modular.new, if_pos (by omega)] at h; cases h

theorem pow_residue {a : Modular} (hm : 0 < a.modulus) (h0 : 0 ≤ a.value) (h1 : a.value < a.modulus) (e : Nat) :
    IsResidue (a.pow e) (a.value ^ e) a.modulus := by
  have hmul : ∀ x y : Modular, (x.modulus = a.modulus ∧ 0 ≤ x.value ∧ x.value < a.modulus) →
      (y.modulus = a.modulus ∧ 0 ≤ y.value ∧ y.value < a.modulus) →
      ((Modular.expect (x.mul y)).modulus = a.modulus ∧ 0 ≤ (Modular.expect (x.mul y)).value ∧
        (Modular.expect (x.mul y)).value < a.modulus) ∧
      (((Modular.expect (x.mul y)).value : ZMod a.modulus.natAbs)) =
        (x.value : ZMod a.modulus.natAbs) * (y.value : ZMod a.modulus.natAbs) := by
    intro x y hx hy
    obtain ⟨r, r1, r2⟩ := mod_new (v := x.value * y.value) hm
    have e1 : Modular.expect (x.mul y) = r := by
      rw [Modular.mul, if_neg (by rw [hx.1, hy.1]; simp), hx.1, r1]; rfl
    rw [e1]
    refine ⟨⟨r2.1, r2.2.1, r2.2.2.1⟩, ?_⟩
    rw [← Int.cast_mul]
    rw [ZMod.intCast_eq_intCast_iff]
    have : ((a.modulus.natAbs : Nat) : Int) = a.modulus := by omega
    rw [this]; exact r2.2.2.2
  obtain ⟨o, o1, o2⟩ := mod_new (v := 1) hm
  have eo : Modular.expect (Modular.new 1 a.modulus) = o := by rw [o1]; rfl
  have ⟨s1, s2⟩ := sqPow_spec (mul := fun x y => Modular.expect (x.mul y))
    (P := fun x => x.modulus = a.modulus ∧ 0 ≤ x.value ∧ x.value < a.modulus)
    (v := fun x => (x.value : ZMod a.modulus.natAbs)) hmul (le_refl e)
    (r := Modular.expect (Modular.new 1 a.modulus)) (b := a) (by rw [eo]; exact ⟨o2.1, o2.2.1, o2.2.2.1⟩) ⟨rfl, h0, h1⟩
  refine ⟨s1.1, s1.2.1, s1.2.2, ?_⟩
  have hn : ((a.modulus.natAbs : Nat) : Int) = a.modulus := by omega
  have ho : ((o.value : Int) : ZMod a.modulus.natAbs) = 1 := by
    have : ((o.value : Int) : ZMod a.modulus.natAbs) = ((1 : Int) : ZMod a.modulus.natAbs) := by
      rw [ZMod.intCast_eq_intCast_iff, hn]; exact o2.2.2.2
    simpa using this
  rw [eo] at s2
  rw [ho, one_mul, ← Int.cast_pow, ZMod.intCast_eq_intCast_iff, hn, ← eo] at s2
  exact s2

/-- Residues stay in `[0, modulus)`. -/
theorem C50_range {a : Modular} (h : ModBuilt a) : 0 ≤ a.value ∧ a.value < a.modulus := by
  have fin : ∀ {v n r}, Modular.new v n = some r → 0 ≤ r.value ∧ r.value < r.modulus := by
    intro v n r h
    have ⟨_, h1, h2, h3, _⟩ := new_some h
    exact ⟨h2, h1 ▸ h3⟩
  induction h with
  | new h => exact fin h
  | add _ _ h => unfold Modular.add at h; split at h; cases h; exact fin h
  | sub _ _ h => unfold Modular.sub at h; split at h; cases h; exact fin h
  | mul _ _ h => unfold Modular.mul at h; split at h; cases h; exact fin h
  | @negated a _ ih =>
    obtain ⟨r, r1, r2⟩ := mod_new (v := -a.value) (n := a.modulus) (by omega)
    rw [Modular.negated, r1]; exact ⟨r2.2.1, r2.1 ▸ r2.2.2.1⟩
  | @pow a e _ _ ih =>
    have := pow_residue (a := a) (by omega) ih.1 ih.2 e
    exact ⟨this.2.1, this.1 ▸ this.2.2.1⟩
  | inverse _ h => unfold Modular.inverse at h; simp only at h; split at h; cases h; exact fin h
  | div _ _ h =>
    unfold Modular.div at h; split at h; cases h; split at h; cases h
    unfold Modular.mul at h; split at h; cases h; exact fin h

/-- `new` refuses exactly non-positive moduli. -/
theorem C50_new (v n : Int) : (n ≤ 0 → Modular.new v n = none) ∧
    (0 < n → ∃ r, Modular.new v n = some r ∧ IsResidue r v n) :=
  ⟨fun h => by rw [Modular.new, if_pos (by omega)], mod_new⟩
/-- Equal residues are equal values. -/
theorem C50_eq_iff {a b : Modular} (ha : ModBuilt a) (hb : ModBuilt b) :
    a = b ↔ a.modulus = b.modulus ∧ a.value ≡ b.value [ZMOD a.modulus] := by
  have ⟨a1, a2⟩ := C50_range ha
  have ⟨b1, b2⟩ := C50_range hb
  constructor
  · rintro rfl; exact ⟨rfl, rfl⟩
  · rintro ⟨h1, h2⟩
    rw [Int.ModEq, Int.emod_eq_of_lt a1 a2, Int.emod_eq_of_lt b1 (h1 ▸ b2)] at h2
    cases a; cases b; simp_all
/-- Sum, difference and product mod `n`; mixing moduli is refused. -/
theorem C50_add {a b : Modular} (ha : ModBuilt a) : (a.modulus ≠ b.modulus → a.add b = none) ∧
    (a.modulus = b.modulus → ∃ r, a.add b = some r ∧ IsResidue r (a.value + b.value) a.modulus) := by
  have := C50_range ha
  constructor
  · intro h; rw [Modular.add, if_pos h]
  · intro h; rw [Modular.add, if_neg (by simpa using h)]; exact mod_new (by omega)
theorem C50_sub {a b : Modular} (ha : ModBuilt a) : (a.modulus ≠ b.modulus → a.sub b = none) ∧
    (a.modulus = b.modulus → ∃ r, a.sub b = some r ∧ IsResidue r (a.value - b.value) a.modulus) := by
  have := C50_range ha
  constructor
  · intro h; rw [Modular.sub, if_pos h]
  · intro h; rw [Modular.sub, if_neg (by simpa using h)]; exact mod_new (by omega)
theorem C50_mul {a b : Modular} (ha : ModBuilt a) : (a.modulus ≠ b.modulus → a.mul b = none) ∧
    (a.modulus = b.modulus → ∃ r, a.mul b = some r ∧ IsResidue r (a.value * b.value) a.modulus) := by
  have := C50_range ha
  constructor
  · intro h; rw [Modular.mul, if_pos h]
  · intro h; rw [Modular.mul, if_neg (by simpa using h)]; exact mod_new (by omega)
theorem C50_negated {a : Modular} (ha : ModBuilt a) : IsResidue a.negated (-a.value) a.modulus := by
  have := C50_range ha
  obtain ⟨r, r1, r2⟩ := mod_new (v := -a.value) (n := a.modulus) (by omega)
  rw [Modular.negated, r1]; exact r2
/-- Modular exponentiation, every exponent. -/
theorem C50_pow {a : Modular} (ha : ModBuilt a) (e : Nat) : IsResidue (a.pow e) (a.value ^ e) a.modulus :=
  have := C50_range ha
  pow_residue (by omega) this.1 this.2 e
/-- The inverse exists exactly for units and multiplies to one. -/
theorem C50_inverse {a : Modular} (ha : ModBuilt a) :
    (Int.gcd a.value a.modulus ≠ 1 → a.inverse = none) ∧
    (Int.gcd a.value a.modulus = 1 → ∃ r, a.inverse = some r ∧ r.modulus = a.modulus ∧ 0 ≤ r.value ∧ r.value < a.modulus ∧
      a.value * r.value ≡ 1 [ZMOD a.modulus]) := by
  have hr := C50_range ha
  have ⟨g1, g2⟩ := Modular.egcd_spec (a := a.value) (b := a.modulus) hr.1 (by omega)
  constructor
  · intro h
    unfold Modular.inverse
    simp only
    rw [if_pos (by rw [g1]; exact_mod_cast h)]
  · intro h
    rw [h] at g1 g2
    obtain ⟨r, r1, r2⟩ := mod_new (v := (bigintEgcd a.value a.modulus).2.1) (n := a.modulus) (by omega)
    refine ⟨r, by unfold Modular.inverse; simp only; rw [if_neg (by rw [g1]; simp), r1], r2.1, r2.2.1, r2.2.2.1, ?_⟩
    refine (r2.2.2.2.mul_left a.value).trans ?_
    rw [Int.modEq_iff_dvd]
    exact ⟨(bigintEgcd a.value a.modulus).2.2, by push_cast at g2; linarith⟩
/-- Division multiplies by the inverse: the quotient times the divisor is the dividend. -/
theorem C50_div {a b : Modular} (ha : ModBuilt a) (hb : ModBuilt b) :
    (a.modulus ≠ b.modulus ∨ Int.gcd b.value b.modulus ≠ 1 → a.div b = none) ∧
    (a.modulus = b.modulus → Int.gcd b.value b.modulus = 1 → ∃ r, a.div b = some r ∧ r.modulus = a.modulus ∧
      r.value * b.value ≡ a.value [ZMOD a.modulus]) := by
  constructor
  · rintro (h | h)
    · rw [Modular.div, if_pos h]
    · unfold Modular.div; split
      · rfl
      · rw [(C50_inverse hb).1 h]
  · intro hm hg
    obtain ⟨i, i1, i2, _, _, i5⟩ := (C50_inverse hb).2 hg
    obtain ⟨r, r1, r2⟩ := (C50_mul (b := i) ha).2 (by rw [hm, i2])
    refine ⟨r, by rw [Modular.div, if_neg (by simpa using hm), i1]; exact r1, r2.1, ?_⟩
    refine (r2.2.2.2.mul_right b.value).trans ?_
    rw [← hm] at i5
    have := i5.mul_left a.value
    rw [mul_one] at this
    rwa [mul_assoc, mul_comm i.value b.value]

example : ModBuilt ⟨4, 7⟩ ∧ Modular.inverse ⟨3, 7⟩ = some ⟨5, 7⟩ ∧ Modular.inverse ⟨2, 4⟩ = none ∧
    Modular.pow ⟨3, 7⟩ 6 = ⟨1, 7⟩ := ⟨.new (v := -3) (n := 7) (by decide), by decide, by decide, by decide⟩

/-! ## C51 -/

/-- The IEEE-754 binary64 value of a bit pattern: sign bit 63, exponent bits 52–62, fraction bits 0–51. -/
def ieeeValue (bits : Nat) : ℚ :=
  let s : ℚ := if bits / 2 ^ 63 % 2 = 1 then -1 else 1
  let e : Nat := bits / 2 ^ 52 % 2048
  let f : ℚ := (bits % 2 ^ 52 : Nat) / 2 ^ 52
  if e = 0 then s * (f * (2 : ℚ) ^ (-1022 : Int)) else s * ((1 + f) * (2 : ℚ) ^ ((e : Int) - 1023))
def ieeeNan (bits : Nat) : Prop := bits / 2 ^ 52 % 2048 = 2047 ∧ bits % 2 ^ 52 ≠ 0
def ieeePosInf (bits : Nat) : Prop := bits / 2 ^ 52 % 2048 = 2047 ∧ bits % 2 ^ 52 = 0 ∧ bits / 2 ^ 63 % 2 ≠ 1
def ieeeNegInf (bits : Nat) : Prop := bits / 2 ^ 52 % 2048 = 2047 ∧ bits % 2 ^ 52 = 0 ∧ bits / 2 ^ 63 % 2 = 1
def ieeeFinite (bits : Nat) : Prop := bits / 2 ^ 52 % 2048 ≠ 2047

theorem ieee_eq (f : Nat) : f64Value f = ieeeValue f := by
  unfold f64Value ieeeValue fSign fBiased fFrac
  simp only [decide_eq_true_eq]
  split <;> split <;> rfl

theorem fin_iff {f : Nat} : fIsFinite f = true ↔ ieeeFinite f := by
  simp only [fIsFinite, decide_eq_true_eq]; rfl
theorem nan_iff {f : Nat} : fIsNan f = true ↔ ieeeNan f := by
  simp only [fIsNan, decide_eq_true_eq]; rfl
theorem inf_iff {f : Nat} : fIsInf f = true ↔ ieeePosInf f := by
  simp only [fIsInf, fSign, Bool.and_eq_true, Bool.not_eq_true', decide_eq_true_eq, decide_eq_false_iff_not, and_assoc]; rfl
theorem neginf_iff {f : Nat} : fIsNegInf f = true ↔ ieeeNegInf f := by
  simp only [fIsNegInf, fSign, Bool.and_eq_true, decide_eq_true_eq, and_assoc]; rfl

/-- What comparing a number with a float must answer. -/
structure ExactCmp (x : ℚ) (f : Nat) (o : Option Ordering) : Prop where
  nan : ieeeNan f → o = none
  inf : ieeePosInf f → o = some .lt
  negInf : ieeeNegInf f → o = some .gt
  finite : ieeeFinite f → o = some (compare x (ieeeValue f))

theorem exactCmp_of {x : ℚ} {f : Nat} {o : Ordering} (h : fIsFinite f = true → o = compare x (f64Value f)) :
    ExactCmp x f (if fIsNan f then none else if fIsInf f then some .lt else if fIsNegInf f then some .gt else some o) := by
  constructor
  · intro hn; rw [if_pos (nan_iff.2 hn)]
  · intro hn
    rw [if_neg (fun h => (nan_iff.1 h).2 hn.2.1), if_pos (inf_iff.2 hn)]
  · intro hn
    rw [if_neg (fun h => (nan_iff.1 h).2 hn.2.1), if_neg (fun h => (inf_iff.1 h).2.2 hn.2.2), if_pos (neginf_iff.2 hn)]
  · intro hn
    have hf : fIsFinite f = true := fin_iff.2 hn
    rw [if_neg (fun h => hn (nan_iff.1 h).1), if_neg (fun h => hn (inf_iff.1 h).1),
      if_neg (fun h => hn (neginf_iff.1 h).1), h hf, ieee_eq]

/-- Comparing an `i64` with any of the `2^64` floats compares the mathematical values. -/
theorem C51_cmp_i64 (i : Int) (f : Nat) : ExactCmp i f (cmpI64F64 i f) := by
  have : cmpI64F64 i f = (if fIsNan f then none else if fIsInf f then some .lt else if fIsNegInf f then some .gt else
      some (if i.natAbs ≤ 2 ^ 53 then compare (i : ℚ) (f64Value f) else
        (Rational.ofInt i).cmp (Rational.expect (rationalFromF64 f)))) := by
    unfold cmpI64F64
    by_cases h : i.natAbs ≤ 2 ^ 53
    · simp only [if_pos h]
    · simp only [if_neg h]
  rw [this]
  apply exactCmp_of
  intro hf
  split
  · rfl
  · obtain ⟨r, r1, r2, r3⟩ := rationalFromF64_spec hf
    rw [r1, Rational.cmp_spec (Rational.wf_ofInt i) (by exact r2), Rational.toRat_ofInt]
    simp only [Rational.expect, Option.getD_some]; rw [r3]
/-- Comparing a rational or a big integer with any float. -/
theorem C51_cmp_rational {r : Rational} (hr : RBuilt r) (f : Nat) : ExactCmp (ratValue r) f (cmpRationalF64 r f) := by
  apply exactCmp_of
  intro hf
  obtain ⟨q, q1, q2, q3⟩ := rationalFromF64_spec hf
  rw [q1, Rational.cmp_spec (rbuilt_wf hr) (by exact q2)]
  simp only [Rational.expect, Option.getD_some]; rw [q3]; rfl
/-- Every finite float converts to exactly its value. -/
theorem C51_exact_value {f : Nat} (h : ieeeFinite f) : ∃ r, rationalFromF64 f = some r ∧ ratValue r = ieeeValue f := by
  obtain ⟨r, r1, _, r3⟩ := rationalFromF64_spec (f := f) (fin_iff.2 h)
  exact ⟨r, r1, by rw [← ieee_eq]; exact r3⟩
/-- A float used as an integer key matches exactly the `i64` it equals — for every float except `2^63`. -/
theorem C51_key_partial {f : Nat} (hf : ieeeFinite f) (h63 : ieeeValue f ≠ 2 ^ 63) (i : Int) :
    keyOfF64 f = some i ↔ (ieeeValue f = i ∧ -2 ^ 63 ≤ i ∧ i < 2 ^ 63) := by
  have hfin : fIsFinite f = true := fin_iff.2 hf
  unfold keyOfF64 castI64
  rw [ieee_eq]
  generalize ieeeValue f = x at *
  constructor
  · intro h
    split at h
    · rename_i hc
      obtain ⟨_, h1, h2, h3⟩ := hc
      have hx : x = (x.num : ℚ) := by
        conv_lhs => rw [← Rat.num_div_den x, h1]
        simp
      have b1 : -2 ^ 63 ≤ x.num := by rw [hx] at h2; exact_mod_cast h2
      have b2 : x.num ≤ 2 ^ 63 := by rw [hx] at h3; exact_mod_cast h3
      have b3 : x.num ≠ 2 ^ 63 := fun hc => h63 (by rw [hx, hc]; norm_num)
      simp only [h1, Nat.cast_one, Int.tdiv_one, Option.some.injEq] at h
      have : i = x.num := by omega
      rw [this]; exact ⟨hx, by omega, by omega⟩
    · cases h
  · rintro ⟨h1, h2, h3⟩
    have hn : x.num = i := by rw [h1]; exact Rat.num_intCast i
    have hd : x.den = 1 := by rw [h1]; exact Rat.den_intCast i
    have b1 : x ≥ -2 ^ 63 := by rw [h1]; exact_mod_cast h2
    have b2 : x ≤ 2 ^ 63 := by rw [h1]; exact_mod_cast h3.le
    rw [if_pos ⟨hfin, hd, b1, b2⟩, hn, hd]
    simp only [Nat.cast_one, Int.tdiv_one, Option.some.injEq]
    omega
/-- The missing float: `2^63` is accepted as the key `2^63 - 1`, a number it does not equal. -/
theorem C51_key_two63_fails : ∃ f, ieeeFinite f ∧ ieeeValue f = 2 ^ 63 ∧ keyOfF64 f = some (2 ^ 63 - 1) := by
  have hv : ieeeValue 0x43E0000000000000 = 2 ^ 63 := by
    unfold ieeeValue
    norm_num
  refine ⟨0x43E0000000000000, by unfold ieeeFinite; norm_num, hv, ?_⟩
  unfold keyOfF64 castI64
  rw [ieee_eq, hv]
  decide
/-- A float that is not finite matches no key. -/
theorem C51_key_not_finite {f : Nat} (h : ¬ ieeeFinite f) : keyOfF64 f = none := by
  unfold keyOfF64
  rw [if_neg]
  rintro ⟨h1, _⟩
  exact h (fin_iff.1 h1)

/-- `1.0` is finite, has value 1 and is the key 1. -/
example : ieeeFinite 0x3FF0000000000000 ∧ ieeeValue 0x3FF0000000000000 = 1 := by
  unfold ieeeFinite ieeeValue; norm_num
example : ieeeNan 0x7FF8000000000000 ∧ ieeePosInf 0x7FF0000000000000 ∧ ieeeNegInf 0xFFF0000000000000 := by
  unfold ieeeNan ieeePosInf ieeeNegInf; norm_num
/-- `9007199254740993` against the float `9007199254740992.0`: greater, not equal. -/
example : cmpI64F64 9007199254740993 0x4340000000000000 = some .gt := by decide +kernel

/-! ## C52 -/

/-- `i64` and `BigInt` agree. -/
theorem C52_i64_bigint {n : Int} (h : -2 ^ 63 ≤ n ∧ n < 2 ^ 63) {b : BigInt} (hb : Built b) (hv : value b = n) :
    hashI64 n = hashBigint b := by
  rw [hashBigint_eq (built_wf hb), ← value_eq, hv, hashI64, modP_eq (by omega)]; rfl
/-- Two big integers of equal value (and the integer-level hash used for fractions) agree. -/
theorem C52_bigint {b : BigInt} (hb : Built b) : hashBigint b = hashInt (value b) := by
  rw [hashBigint_eq (built_wf hb), value_eq]
/-- `BigInt` and integral `Rational` agree. -/
theorem C52_bigint_rational {b : BigInt} (hb : Built b) {r : Rational} (hr : RBuilt r) (hv : ratValue r = value b) :
    hashBigint b = hashRational r := by
  have : r = Rational.ofInt (value b) := (C46_eq_iff hr (.ofInt _)).2 (by rw [hv, C46_ofInt])
  rw [C52_bigint hb, this, hashRational_ofInt]
/-- Float and `Rational` of the same value agree. -/
theorem C52_float_rational {f : Nat} (hf : ieeeFinite f) {r : Rational} (hr : RBuilt r) (hv : ratValue r = ieeeValue f) :
    hashF64 f = hashRational r :=
  hashF64_eq (fin_iff.2 hf) (rbuilt_wf hr) (by rw [ieee_eq]; exact hv)
/-- Float and `BigInt` of the same value agree. -/
theorem C52_float_bigint {f : Nat} (hf : ieeeFinite f) {b : BigInt} (hb : Built b) (hv : (value b : ℚ) = ieeeValue f) :
    hashF64 f = hashBigint b := by
  rw [C52_float_rational hf (.ofInt (value b)) (by rw [C46_ofInt, hv]), hashRational_ofInt, C52_bigint hb]
/-- Float and `i64` of the same value agree. -/
theorem C52_float_i64 {f : Nat} (hf : ieeeFinite f) {n : Int} (h : -2 ^ 63 ≤ n ∧ n < 2 ^ 63) (hv : (n : ℚ) = ieeeValue f) :
    hashF64 f = hashI64 n := by
  rw [C52_float_rational hf (.ofInt n) (by rw [C46_ofInt, hv]), hashRational_ofInt, hashI64, modP_eq (by omega)]; rfl
/-- Floats of equal value agree (the two zeros). -/
theorem C52_float_float {f g : Nat} (hf : ieeeFinite f) (hg : ieeeFinite g) (hv : ieeeValue f = ieeeValue g) :
    hashF64 f = hashF64 g := by
  obtain ⟨r, r1, r2, r3⟩ := rationalFromF64_spec (f := f) (fin_iff.2 hf)
  rw [hashF64_eq (fin_iff.2 hf) r2 r3,
    hashF64_eq (f := g) (fin_iff.2 hg) r2 (by rw [r3, ieee_eq, ieee_eq, hv])]

example : hashF64 0xBFE0000000000000 = hashRational ⟨-1, 2⟩ :=
  C52_float_rational (by unfold ieeeFinite; norm_num) (.new (n := -1) (d := 2) (by decide))
    (by unfold ieeeValue ratValue; norm_num)
/-- The hash is not constant. -/
example : hashI64 (-1) = 2305843009213693950 ∧ hashI64 5 = 5 := by decide

end Verif.Props
