import Verif.Num.BigIntText
/-! # Properties C44, C45: big integers

Specification: `value a` is the integer a `BigInt` denotes (sign and little-endian base-`2^64` limbs), and
`Built a` says that `a` was obtained from the public constructors and operations. -/
namespace Verif.Props
open Verif Verif.Num

/-- The integer denoted by a `BigInt`. -/
def value (a : BigInt) : Int :=
  let m : Nat := a.mag.limbs.foldr (fun d acc => d + 2 ^ 64 * acc) 0
  match a.sign with
  | .neg => -(m : Int)
  | .zero => 0
  | .pos => (m : Int)

/-- Values a program can obtain through the public API. -/
inductive Built : BigInt → Prop
  | zero : Built .zero
  | fromI64 {x : Int} (h : -2 ^ 63 ≤ x ∧ x < 2 ^ 63) : Built (.fromI64 x)
  | fromU64 {x : Nat} (h : x < 2 ^ 64) : Built (.fromU64 x)
  | parse {s : List Char} {a} (h : BigInt.parseDecimal s = some a) : Built a
  | bytes {neg : Bool} {l : List Nat} (h : ∀ b ∈ l, b < 256) : Built (.fromLeBytes neg l)
  | negated {a} (h : Built a) : Built a.negated
  | abs {a} (h : Built a) : Built a.abs
  | add {a b} (ha : Built a) (hb : Built b) : Built (a.add b)
  | sub {a b} (ha : Built a) (hb : Built b) : Built (a.sub b)
  | mul {a b} (ha : Built a) (hb : Built b) : Built (a.mul b)
  | quot {a b q r} (ha : Built a) (hb : Built b) (h : a.divRem b = some (q, r)) : Built q
  | rem {a b q r} (ha : Built a) (hb : Built b) (h : a.divRem b = some (q, r)) : Built r
  | pow {a} {e : Nat} (ha : Built a) (h : e < 2 ^ 32) : Built (a.pow e)

theorem value_eq (a : BigInt) : value a = a.toInt := by
  have : ∀ l : List Nat, l.foldr (fun d acc => d + 2 ^ 64 * acc) 0 = val l := by
    intro l; induction l with
    | nil => rfl
    | cons d t ih => rw [List.foldr_cons, ih, val, ← B_eq]
  unfold value BigInt.toInt
  simp only [this]
  cases a.sign <;> rfl

theorem built_wf {a : BigInt} (h : Built a) : a.Wf := by
  induction h with
  | zero => exact BigInt.wf_zero
  | fromI64 h => exact (BigInt.fromI64_spec (by unfold B; omega)).1
  | fromU64 h => exact (BigInt.fromU64_spec (by unfold B; omega)).1
  | @parse s a h =>
    have ⟨h1, h2⟩ := BigInt.parse_spec s
    by_cases hc : (BigInt.splitSign s).2 = [] ∨ ∃ c ∈ (BigInt.splitSign s).2, c.isDigit = false
    · rw [h1 hc] at h; cases h
    · simp only [not_or, not_exists, not_and, Bool.not_eq_false] at hc
      obtain ⟨r, r1, r2, _⟩ := h2 hc.1 hc.2
      rw [r1] at h; cases h; exact r2
  | bytes h => exact (BigInt.fromSignMag_spec _ (BigInt.chunkLimbs_spec h _ (le_refl _)).1).1
  | negated _ ih => exact (BigInt.negated_spec ih).1
  | abs _ ih => exact (BigInt.abs_spec ih).1
  | add _ _ i1 i2 => exact (BigInt.add_spec i1 i2).1
  | sub _ _ i1 i2 => exact (BigInt.sub_spec i1 i2).1
  | mul _ _ i1 i2 => exact (BigInt.mul_spec i1 i2).1
  | @quot a b q r _ _ h i1 i2 =>
    have ⟨d1, d2⟩ := BigInt.divRem_spec i1 i2
    by_cases hb : b.toInt = 0
    · rw [d1 hb] at h; cases h
    · obtain ⟨q, r, e, wq, _⟩ := d2 hb
      rw [e] at h; cases h; exact wq
  | @rem a b q r _ _ h i1 i2 =>
    have ⟨d1, d2⟩ := BigInt.divRem_spec i1 i2
    by_cases hb : b.toInt = 0
    · rw [d1 hb] at h; cases h
    · obtain ⟨q, r, e, _, wr, _⟩ := d2 hb
      rw [e] at h; cases h; exact wr
  | pow _ h ih => exact (BigInt.pow_spec ih h).1

/-- C44: structural equality of `BigInt`s is equality of the integers they denote. -/
theorem C44_eq_iff {a b : BigInt} (ha : Built a) (hb : Built b) : a = b ↔ value a = value b := by
  rw [value_eq, value_eq]
  exact ⟨fun h => by rw [h], BigInt.eq_of_toInt (built_wf ha) (built_wf hb)⟩

/-- C44: every integer is represented. -/
theorem C44_surjective (n : Int) : ∃ a, Built a ∧ value a = n := by
  have key : ∀ m : Nat, ∃ a, Built a ∧ value a = m := by
    intro m
    induction m with
    | zero => exact ⟨_, .zero, rfl⟩
    | succ m ih =>
      obtain ⟨a, h1, h2⟩ := ih
      have h3 : Built (.fromU64 1) := .fromU64 (by decide)
      refine ⟨_, .add h1 h3, ?_⟩
      rw [value_eq, (BigInt.add_spec (built_wf h1) (built_wf h3)).2, ← value_eq, h2,
        (BigInt.fromU64_spec (by decide)).2]
      push_cast; rfl
  obtain ⟨a, h1, h2⟩ := key n.natAbs
  rcases Int.natAbs_eq n with h | h
  · exact ⟨a, h1, by rw [h2]; exact h.symm⟩
  · refine ⟨_, .negated h1, ?_⟩
    rw [value_eq, (BigInt.negated_spec (built_wf h1)).2, ← value_eq, h2]; exact h.symm

theorem C44_fromI64 {x : Int} (h : -2 ^ 63 ≤ x ∧ x < 2 ^ 63) : value (.fromI64 x) = x := by
  rw [value_eq]; exact (BigInt.fromI64_spec (by unfold B; omega)).2
theorem C44_fromU64 {x : Nat} (h : x < 2 ^ 64) : value (.fromU64 x) = x := by
  rw [value_eq]; exact (BigInt.fromU64_spec (by unfold B; omega)).2
/-- C44: narrowing succeeds exactly on the range of `i64` and then gives the same number. -/
theorem C44_toI64 {a : BigInt} (ha : Built a) (x : Int) :
    a.toI64 = some x ↔ value a = x ∧ -2 ^ 63 ≤ x ∧ x < 2 ^ 63 := by
  rw [BigInt.toI64_spec (built_wf ha), value_eq]
  constructor
  · intro h
    split at h
    · rename_i hr; cases h; refine ⟨rfl, ?_⟩; omega
    · cases h
  · rintro ⟨rfl, h1, h2⟩
    rw [if_pos]
    omega
theorem C44_negated {a : BigInt} (ha : Built a) : value a.negated = -value a := by
  simp only [value_eq]; exact (BigInt.negated_spec (built_wf ha)).2
theorem C44_abs {a : BigInt} (ha : Built a) : value a.abs = |value a| := by
  simp only [value_eq]; exact (BigInt.abs_spec (built_wf ha)).2
theorem C44_add {a b : BigInt} (ha : Built a) (hb : Built b) : value (a.add b) = value a + value b := by
  simp only [value_eq]; exact (BigInt.add_spec (built_wf ha) (built_wf hb)).2
theorem C44_sub {a b : BigInt} (ha : Built a) (hb : Built b) : value (a.sub b) = value a - value b := by
  simp only [value_eq]; exact (BigInt.sub_spec (built_wf ha) (built_wf hb)).2
theorem C44_mul {a b : BigInt} (ha : Built a) (hb : Built b) : value (a.mul b) = value a * value b := by
  simp only [value_eq]; exact (BigInt.mul_spec (built_wf ha) (built_wf hb)).2
theorem C44_pow {a : BigInt} (ha : Built a) {e : Nat} (he : e < 2 ^ 32) : value (a.pow e) = value a ^ e := by
  simp only [value_eq]; exact (BigInt.pow_spec (built_wf ha) he).2
/-- C44: division by zero is refused. -/
theorem C44_div_by_zero {a b : BigInt} (ha : Built a) (hb : Built b) : a.divRem b = none ↔ value b = 0 := by
  rw [value_eq]
  have ⟨d1, d2⟩ := BigInt.divRem_spec (built_wf ha) (built_wf hb)
  refine ⟨fun h => ?_, d1⟩
  by_contra hb0
  obtain ⟨q, r, e, _⟩ := d2 hb0
  rw [e] at h; cases h
/-- C44: division truncates toward zero: `a = q*b + r` with `|r| < |b|` and `r` zero or of the sign of `a`. -/
theorem C44_div_rem {a b q r : BigInt} (ha : Built a) (hb : Built b) (h : a.divRem b = some (q, r)) :
    value a = value q * value b + value r ∧ |value r| < |value b| ∧ 0 ≤ value r * value a := by
  simp only [value_eq]
  have ⟨d1, d2⟩ := BigInt.divRem_spec (built_wf ha) (built_wf hb)
  have hb0 : b.toInt ≠ 0 := fun hc => by rw [d1 hc] at h; cases h
  obtain ⟨q', r', e, _, _, eq, er⟩ := d2 hb0
  rw [e] at h; cases h
  rw [eq, er]
  refine ⟨?_, ?_, ?_⟩
  · have := Int.mul_tdiv_add_tmod a.toInt b.toInt
    rw [Int.mul_comm]; omega
  · have := Int.natAbs_tmod a.toInt b.toInt
    rw [Int.abs_eq_natAbs, Int.abs_eq_natAbs, this]
    have h2 : a.toInt.natAbs % b.toInt.natAbs < b.toInt.natAbs := Nat.mod_lt _ (by omega)
    exact_mod_cast h2
  · rcases le_total 0 a.toInt with h | h
    · exact mul_nonneg (Int.tmod_nonneg _ h) h
    · have : a.toInt.tmod b.toInt = -((-a.toInt).tmod b.toInt) := by rw [Int.neg_tmod, neg_neg]
      rw [this]
      have h2 : 0 ≤ (-a.toInt).tmod b.toInt := Int.tmod_nonneg _ (by omega)
      nlinarith
theorem C44_cmp {a b : BigInt} (ha : Built a) (hb : Built b) : a.cmp b = compare (value a) (value b) := by
  simp only [value_eq]; exact BigInt.cmp_spec (built_wf ha) (built_wf hb)
theorem C44_is_odd {a : BigInt} (ha : Built a) : a.isOdd = true ↔ Odd (value a) := by
  rw [value_eq, BigInt.isOdd_spec (built_wf ha), Int.odd_iff]
theorem C44_signs {a : BigInt} (ha : Built a) :
    (a.isZero = true ↔ value a = 0) ∧ (a.isNegative = true ↔ value a < 0) ∧ (a.isPositive = true ↔ 0 < value a) := by
  rw [value_eq]
  have w := built_wf ha
  exact ⟨w.isZero, by simp [BigInt.isNegative, w.sign_neg], by simp [BigInt.isPositive, w.sign_pos]⟩
/-- C44: byte serialisation round-trips, and any byte string denotes its little-endian value. -/
theorem C44_bytes_roundtrip {a : BigInt} (ha : Built a) :
    BigInt.fromLeBytes a.toLeBytes.1 a.toLeBytes.2 = a := by
  have w := built_wf ha
  simp only [BigInt.toLeBytes, BigInt.fromLeBytes]
  have hl : a.mag.limbs.length ≤ (a.mag.limbs.flatMap (BigInt.leBytes 8)).length := by
    rw [List.length_flatMap]
    induction a.mag.limbs with
    | nil => simp
    | cons d t ih =>
      have := BigInt.leBytes_length 8 d
      rw [List.map_cons, List.sum_cons, List.length_cons]; omega
  rw [BigInt.chunkLimbs_flatMap w.norm.1 _ hl]
  have ⟨s1, s2⟩ := BigInt.fromSignMag_spec (decide (a.sign = .neg)) w.norm.1
  apply BigInt.eq_of_toInt s1 w
  rw [s2, w.toInt_eq]
  simp
theorem C44_from_bytes {neg : Bool} {l : List Nat} (h : ∀ b ∈ l, b < 256) :
    value (.fromLeBytes neg l) =
      (if neg then -1 else 1) * ((l.foldr (fun d acc => d + 256 * acc) 0 : Nat) : Int) := by
  have ⟨c1, c2⟩ := BigInt.chunkLimbs_spec h _ (le_refl l.length)
  have ⟨s1, s2⟩ := BigInt.fromSignMag_spec neg c1
  have e : ∀ l : List Nat, l.foldr (fun d acc => d + 256 * acc) 0 = BigInt.ofLeBytes l := by
    intro l; induction l with
    | nil => rfl
    | cons d t ih => rw [List.foldr_cons, ih, BigInt.ofLeBytes]
  rw [value_eq, e]
  unfold BigInt.fromLeBytes
  rw [s2, c2]
  cases neg <;> simp

/-- Non-trivial instance: `(2^64 - 1)^2` needs carries across limbs, and dividing it back is exact. -/
example : Built ((BigInt.fromU64 (2 ^ 64 - 1)).mul (.fromU64 (2 ^ 64 - 1))) ∧
    value (((BigInt.fromU64 (2 ^ 64 - 1)).mul (.fromU64 (2 ^ 64 - 1))).mul (.fromI64 (-3)))
      = -3 * (2 ^ 64 - 1) ^ 2 :=
  ⟨.mul (.fromU64 (by decide)) (.fromU64 (by decide)), by decide +kernel⟩
example : (((BigInt.fromU64 (2 ^ 64 - 1)).pow 2).divRem ((BigInt.fromI64 (-7)).pow 23)).map
    (fun p => (value p.1, value p.2)) =
    some (-((2 ^ 64 - 1) ^ 2 / 7 ^ 23), (2 ^ 64 - 1) ^ 2 % 7 ^ 23) := by decide +kernel

/-! ## C45: decimal text -/

/-- Decimal numerals: an optional sign followed by at least one ASCII digit. -/
def IsNumeral (s : List Char) (n : Int) : Prop :=
  ∃ ds : List Char, ds ≠ [] ∧ (∀ c ∈ ds, c.isDigit = true) ∧
    (((s = ds ∨ s = '+' :: ds) ∧ n = digitsVal ds) ∨ (s = '-' :: ds ∧ n = -(digitsVal ds : Int)))

/-- C45: the printed text is the usual decimal numeral of the integer (Lean's own printer). -/
theorem C45_display {a : BigInt} (ha : Built a) : String.ofList a.display = toString (value a) := by
  rw [value_eq, BigInt.display_spec (built_wf ha)]
  cases h : a.toInt with
  | ofNat n =>
    have : ¬ (Int.ofNat n < 0) := by simp
    rw [if_neg this]; rfl
  | negSucc n =>
    rw [if_pos (Int.negSucc_lt_zero n)]
    show String.ofList (['-'] ++ dec (n + 1)) = "-" ++ Nat.repr (n + 1)
    rw [String.ofList_append]; rfl

/-- C45: printing and parsing is the identity. -/
theorem C45_roundtrip {a : BigInt} (ha : Built a) : BigInt.parseDecimal a.display = some a := by
  have w := built_wf ha
  rw [BigInt.display_spec w]
  by_cases hneg : a.toInt < 0
  · rw [if_pos hneg]
    have e : BigInt.splitSign (['-'] ++ dec a.toInt.natAbs) = (true, dec a.toInt.natAbs) := rfl
    obtain ⟨r, r1, r2, r3⟩ := (BigInt.parse_spec (['-'] ++ dec a.toInt.natAbs)).2
      (by rw [e]; exact dec_ne_nil _) (by rw [e]; exact fun c hc => isDigit_dec hc)
    rw [e] at r3
    rw [r1]
    congr 1
    apply BigInt.eq_of_toInt r2 w
    rw [r3, digitsVal_dec]; simp only [if_true]; omega
  · rw [if_neg hneg, List.nil_append]
    have e : BigInt.splitSign (dec a.toInt.natAbs) = (false, dec a.toInt.natAbs) :=
      BigInt.splitSign_digits (fun c hc => isDigit_dec hc)
    obtain ⟨r, r1, r2, r3⟩ := (BigInt.parse_spec (dec a.toInt.natAbs)).2
      (by rw [e]; exact dec_ne_nil _) (by rw [e]; exact fun c hc => isDigit_dec hc)
    rw [e] at r3
    rw [r1]
    congr 1
    apply BigInt.eq_of_toInt r2 w
    rw [r3, digitsVal_dec]; simp only [Bool.false_eq_true, if_false]; omega

/-- C45: parsing accepts exactly the numerals and returns the number written. -/
theorem C45_parse_iff (s : List Char) (n : Int) :
    (∃ a, BigInt.parseDecimal s = some a ∧ value a = n) ↔ IsNumeral s n := by
  simp only [value_eq]
  have ⟨p1, p2⟩ := BigInt.parse_spec s
  constructor
  · rintro ⟨a, h1, rfl⟩
    by_cases hc : (BigInt.splitSign s).2 = [] ∨ ∃ c ∈ (BigInt.splitSign s).2, c.isDigit = false
    · rw [p1 hc] at h1; cases h1
    · simp only [not_or, not_exists, not_and, Bool.not_eq_false] at hc
      obtain ⟨r, r1, _, r3⟩ := p2 hc.1 hc.2
      rw [r1] at h1; cases h1
      refine ⟨(BigInt.splitSign s).2, hc.1, hc.2, ?_⟩
      revert r3
      unfold BigInt.splitSign
      split
      · intro r3; right; exact ⟨rfl, by simpa using r3⟩
      · intro r3; left; exact ⟨Or.inr rfl, by simpa using r3⟩
      · intro r3; left; exact ⟨Or.inl rfl, by simpa using r3⟩
  · rintro ⟨ds, hne, hall, h⟩
    have key : ∀ b, BigInt.splitSign s = (b, ds) → n = (if b then -(digitsVal ds : Int) else digitsVal ds) →
        ∃ a, BigInt.parseDecimal s = some a ∧ a.toInt = n := by
      intro b hb hn
      rw [hb] at p2
      obtain ⟨r, r1, _, r3⟩ := p2 hne hall
      exact ⟨r, r1, by rw [r3, hn]⟩
    rcases h with ⟨rfl | rfl, h2⟩ | ⟨rfl, h2⟩
    · exact key false (BigInt.splitSign_digits hall) (by simpa using h2)
    · exact key false rfl (by simpa using h2)
    · exact key true rfl (by simpa using h2)

/-- Non-trivial instance: a number of three limbs whose low decimal chunks have leading zeros. -/
example : Built ((BigInt.fromI64 (-7)).mul ((BigInt.fromU64 10).pow 40)) ∧
    String.ofList ((BigInt.fromI64 (-7)).mul ((BigInt.fromU64 10).pow 40)).display =
      toString (-7 * 10 ^ 40 : Int) := by
  have h1 : Built (BigInt.fromI64 (-7)) := .fromI64 (by decide)
  have h2 : Built (BigInt.fromU64 10) := .fromU64 (by decide)
  refine ⟨.mul h1 (.pow h2 (by decide)), ?_⟩
  rw [C45_display (.mul h1 (.pow h2 (by decide))), C44_mul h1 (.pow h2 (by decide)), C44_pow h2 (by decide),
    C44_fromI64 (by decide), C44_fromU64 (by decide)]
  rfl
example : IsNumeral ['+', '0', '0', '7'] 7 :=
  ⟨['0', '0', '7'], by decide, by decide, Or.inl ⟨Or.inr rfl, by decide⟩⟩

end Verif.Props
