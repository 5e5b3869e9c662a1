import Verif.Num.Rational
import Verif.Num.BigInt
import Mathlib.Data.Nat.ModEq
import Mathlib.Data.Nat.Prime.Basic
import Mathlib.Tactic.NormNum.Prime
import Mathlib.Data.Int.Order.Units
/-! # Exact float interop and the unified numeric hash — models of numeric.rs:1447-1620 and
logicaffeine_data/src/ops.rs:303-315

A float is its 64-bit pattern, a natural below `2^64`. -/
namespace Verif.Num

/-- `to_bits() >> 63`. -/
def fSign (bits : Nat) : Bool := decide (bits / 2 ^ 63 % 2 = 1)
/-- `(to_bits() >> 52) & 0x7ff`. -/
def fBiased (bits : Nat) : Nat := bits / 2 ^ 52 % 2048
/-- `to_bits() & ((1 << 52) - 1)`. -/
def fFrac (bits : Nat) : Nat := bits % 2 ^ 52

/-- `f64::is_nan`. -/
def fIsNan (bits : Nat) : Bool := decide (fBiased bits = 2047 ∧ fFrac bits ≠ 0)
/-- `f64::is_finite`. -/
def fIsFinite (bits : Nat) : Bool := decide (fBiased bits ≠ 2047)
/-- `f == f64::INFINITY`. -/
def fIsInf (bits : Nat) : Bool := decide (fBiased bits = 2047 ∧ fFrac bits = 0) && !fSign bits
/-- `f == f64::NEG_INFINITY`. -/
def fIsNegInf (bits : Nat) : Bool := decide (fBiased bits = 2047 ∧ fFrac bits = 0) && fSign bits

/-- `decompose_f64` (numeric.rs:1463-1477); `frac | (1 << 52)` is a sum since `frac < 2^52`. -/
def decompose (bits : Nat) : Option (Bool × Nat × Int) :=
  if ¬ fIsFinite bits then none
  else if fBiased bits = 0 then some (fSign bits, fFrac bits, -1074)
  else some (fSign bits, fFrac bits + 2 ^ 52, (fBiased bits : Int) - 1075)

/-- `rational_from_f64_exact` (numeric.rs:1480-1491). -/
def rationalFromF64 (bits : Nat) : Option Rational :=
  match decompose bits with
  | none => none
  | some (neg, m, e) =>
    let p : Int × Int := if e ≥ 0 then ((m : Int) * 2 ^ e.toNat, 1) else ((m : Int), 2 ^ (-e).toNat)
    Rational.new (if neg then -p.1 else p.1) p.2

/-- The value of a finite float by the IEEE-754 reading of its fields; the machine's own `f64` operations
(`partial_cmp`, the exact cast of a small integer, `fract`, the saturating `as i64`) are modelled by it. -/
def f64Value (bits : Nat) : ℚ :=
  (if fSign bits then -1 else 1) *
    (if fBiased bits = 0 then (fFrac bits : ℚ) / 2 ^ 52 * (2 : ℚ) ^ (-1022 : Int)
     else (1 + (fFrac bits : ℚ) / 2 ^ 52) * (2 : ℚ) ^ ((fBiased bits : Int) - 1023))

/-- `cmp_i64_f64_exact` (numeric.rs:1494-1511). On the fast path the machine compares the float `i as f64`,
whose value is `i` (`|i| ≤ 2^53`), with `f`. -/
def cmpI64F64 (i : Int) (f : Nat) : Option Ordering :=
  if fIsNan f then none
  else if fIsInf f then some .lt
  else if fIsNegInf f then some .gt
  else if i.natAbs ≤ 2 ^ 53 then some (compare (i : ℚ) (f64Value f))
  else some ((Rational.ofInt i).cmp (Rational.expect (rationalFromF64 f)))

/-- `cmp_bigint_f64_exact`, `cmp_rational_f64_exact` (numeric.rs:1514-1540). -/
def cmpRationalF64 (r : Rational) (f : Nat) : Option Ordering :=
  if fIsNan f then none
  else if fIsInf f then some .lt
  else if fIsNegInf f then some .gt
  else some (r.cmp (Rational.expect (rationalFromF64 f)))

/-- `f as i64`: truncation toward zero, saturating. -/
def castI64 (f : Nat) : Int := max (-2 ^ 63) (min (2 ^ 63 - 1) ((f64Value f).num.tdiv (f64Value f).den))

/-- `logos_i64_key_of_f64` (ops.rs:308-314); `i64::MAX as f64` rounds to `2^63`. -/
def keyOfF64 (f : Nat) : Option Int :=
  if fIsFinite f ∧ (f64Value f).den = 1 ∧ f64Value f ≥ -2 ^ 63 ∧ f64Value f ≤ 2 ^ 63 then some (castI64 f) else none

/-! ## The hash -/

/-- `NUMERIC_HASH_P` (numeric.rs:1459). -/
abbrev hashP : Nat := 2305843009213693951

/-- `mod_p` (numeric.rs:1543-1546); masks and shifts are `%` and `/` by `2^61`. -/
def modP (x : Nat) : Nat :=
  let r := x % 2305843009213693952 + x / 2305843009213693952
  if r ≥ hashP then r - hashP else r

/-- `mul_mod_p` (numeric.rs:1548-1550). -/
def mulModP (a b : Nat) : Nat := a * b % hashP

/-- The loop of `pow_mod_p` (numeric.rs:1555-1561); fuel as in `powModP_eq`. -/
def powModLoop : Nat → Nat → Nat → Nat → Nat
  | 0, _, _, acc => acc
  | fuel + 1, base, exp, acc =>
    if exp = 0 then acc
    else powModLoop fuel (mulModP base base) (exp / 2) (if exp % 2 = 1 then mulModP acc base else acc)

/-- `pow_mod_p` (numeric.rs:1552-1563). The exponent is a `u64`, so 64 iterations are enough. -/
def powModP (base exp : Nat) : Nat := powModLoop 64 (base % hashP) exp 1

/-- `signed_hash` (numeric.rs:1567-1569). -/
def signedHash (neg : Bool) (h : Nat) : Nat := if neg ∧ h ≠ 0 then hashP - h else h

/-- `numeric_hash_i64` (numeric.rs:1572-1574). -/
def hashI64 (n : Int) : Nat := signedHash (decide (n < 0)) (modP n.natAbs)

/-- `numeric_hash_bigint` (numeric.rs:1578-1585). -/
def hashBigint (b : BigInt) : Nat :=
  signedHash (decide (b.sign = .neg))
    (b.mag.limbs.reverse.foldl (fun acc limb => (acc * 8 + modP limb) % hashP) 0)

/-- `numeric_hash_bigint` on the integer denoted (see `C52_bigint`). -/
def hashInt (n : Int) : Nat := signedHash (decide (n < 0)) (n.natAbs % hashP)

/-- `numeric_hash_f64` (numeric.rs:1590-1603). -/
def hashF64 (f : Nat) : Nat :=
  if fIsNan f then 0x6e616e
  else if fIsInf f then 314159
  else if fIsNegInf f then hashP - 314159
  else match decompose f with
    | none => 0
    | some (neg, m, e) => signedHash neg (mulModP (modP m) (powModP 2 (e % 61).toNat))

/-- `numeric_hash_rational` (numeric.rs:1608-1613). -/
def hashRational (r : Rational) : Nat :=
  let num := hashInt |r.num|
  let den := hashInt |r.den|
  signedHash r.isNegative (mulModP num (powModP den (hashP - 2)))

/-! helper lemmas -/

theorem decompose_spec {f : Nat} (h : fIsFinite f = true) : ∃ m e, decompose f = some (fSign f, m, e) ∧ m < 2 ^ 53 ∧
    -1074 ≤ e ∧ f64Value f = (if fSign f then -1 else 1) * ((m : ℚ) * (2 : ℚ) ^ e) := by
  unfold decompose f64Value
  rw [if_neg (by simp [h])]
  have hfr : fFrac f < 2 ^ 52 := Nat.mod_lt _ (by norm_num)
  by_cases h0 : fBiased f = 0
  · rw [if_pos h0, if_pos h0]
    refine ⟨_, _, rfl, by omega, by omega, ?_⟩
    congr 1
    rw [show (-1022 : Int) = 52 + -1074 by norm_num, zpow_add₀ (by norm_num)]
    have : (2 : ℚ) ^ (52 : Int) = 2 ^ 52 := by norm_cast
    rw [this]; field_simp
  · rw [if_neg h0, if_neg h0]
    refine ⟨_, _, rfl, by omega, by omega, ?_⟩
    congr 1
    rw [show (fBiased f : Int) - 1023 = 52 + ((fBiased f : Int) - 1075) by ring, zpow_add₀ (by norm_num)]
    have : (2 : ℚ) ^ (52 : Int) = 2 ^ 52 := by norm_cast
    rw [this]; push_cast; field_simp; ring

theorem rationalFromF64_spec {f : Nat} (h : fIsFinite f = true) :
    ∃ r, rationalFromF64 f = some r ∧ r.Wf ∧ r.toRat = f64Value f := by
  obtain ⟨m, e, h1, _, _, h2⟩ := decompose_spec h
  unfold rationalFromF64
  rw [h1]
  simp only
  by_cases he : e ≥ 0
  · rw [if_pos he]
    obtain ⟨r, r1, r2, r3⟩ := Rational.new_spec (n := if fSign f = true then -((m : Int) * 2 ^ e.toNat) else (m : Int) * 2 ^ e.toNat)
      (d := 1) (by norm_num)
    refine ⟨r, r1, r2, ?_⟩
    rw [r3, h2]
    obtain ⟨k, rfl⟩ : ∃ k : Nat, e = k := ⟨e.toNat, by omega⟩
    rw [zpow_natCast, Int.toNat_natCast]
    split <;> push_cast <;> ring
  · rw [if_neg he]
    obtain ⟨r, r1, r2, r3⟩ := Rational.new_spec (n := if fSign f = true then -(m : Int) else (m : Int))
      (d := 2 ^ (-e).toNat) (by positivity)
    refine ⟨r, r1, r2, ?_⟩
    rw [r3, h2]
    obtain ⟨k, rfl⟩ : ∃ k : Nat, e = -(k : Int) := ⟨(-e).toNat, by omega⟩
    rw [zpow_neg, zpow_natCast, neg_neg, Int.toNat_natCast]
    split <;> push_cast <;> field_simp

theorem modP_eq {x : Nat} (h : x < 18446744073709551616) : modP x = x % hashP := by
  unfold modP
  simp only [hashP]
  split <;> omega

theorem modEq_mod (a : Nat) : a % hashP ≡ a [MOD hashP] := Nat.mod_modEq _ _

theorem powModLoop_eq {fuel base exp acc : Nat} (h : exp < 2 ^ fuel) (ha : acc < hashP) :
    powModLoop fuel base exp acc < hashP ∧ powModLoop fuel base exp acc ≡ acc * base ^ exp [MOD hashP] := by
  induction fuel generalizing base exp acc with
  | zero =>
    have : exp = 0 := by simpa using h
    subst this
    simp [powModLoop, ha]; rfl
  | succ fuel ih =>
    rw [powModLoop]
    by_cases h0 : exp = 0
    · rw [if_pos h0, h0]; simp [ha]; rfl
    · rw [if_neg h0]
      have hp : 0 < hashP := by norm_num
      have hmul : ∀ a b, mulModP a b ≡ a * b [MOD hashP] := fun a b => Nat.mod_modEq _ _
      have hlt : ∀ a b, mulModP a b < hashP := fun a b => Nat.mod_lt _ hp
      have he : exp / 2 < 2 ^ fuel := by rw [pow_succ] at h; omega
      have ⟨i1, i2⟩ := ih (base := mulModP base base) (exp := exp / 2)
        (acc := if exp % 2 = 1 then mulModP acc base else acc) he (by split; exact hlt _ _; exact ha)
      refine ⟨i1, i2.trans ?_⟩
      have e1 : mulModP base base ^ (exp / 2) ≡ base ^ (2 * (exp / 2)) [MOD hashP] := by
        rw [pow_mul, pow_two]; exact (hmul _ _).pow _
      have e2 : (if exp % 2 = 1 then mulModP acc base else acc) ≡ acc * base ^ (exp % 2) [MOD hashP] := by
        split
        · rename_i h1; rw [h1, pow_one]; exact hmul _ _
        · have : exp % 2 = 0 := by omega
          rw [this]; simp; rfl
      have := e2.mul e1
      rw [mul_assoc, ← pow_add] at this
      rwa [show exp % 2 + 2 * (exp / 2) = exp by omega] at this

theorem powModP_eq {base exp : Nat} (h : exp < 2 ^ 64) : powModP base exp < hashP ∧ powModP base exp ≡ base ^ exp [MOD hashP] := by
  have ⟨h1, h2⟩ := powModLoop_eq (base := base % hashP) h (show 1 < hashP by norm_num)
  refine ⟨h1, h2.trans ?_⟩
  rw [one_mul]
  exact (Nat.mod_modEq _ _).pow _

theorem hashInt_nonneg {n : Int} (h : 0 ≤ n) : hashInt n = n.natAbs % hashP := by
  unfold hashInt signedHash
  rw [if_neg (by simp; omega)]

theorem hashBigint_eq {b : BigInt} (h : b.Wf) : hashBigint b = hashInt b.toInt := by
  have key : ∀ l : List Nat, Limbs l → l.foldl (fun acc limb => (acc * 8 + modP limb) % hashP) 0 = val l.reverse % hashP := by
    intro l
    induction l using List.reverseRecOn with
    | nil => intro _; rfl
    | append_singleton t d ih =>
      intro hl
      have hd : d < B := hl d (by simp)
      have ht : Limbs t := fun x hx => hl x (by simp [hx])
      rw [List.foldl_append, List.foldl_cons, List.foldl_nil, ih ht, List.reverse_append, List.reverse_singleton,
        List.singleton_append, val, modP_eq hd]
      have : B = 8 * hashP + 8 := by norm_num
      rw [this]
      generalize val t.reverse = v
      have e : d + (8 * hashP + 8) * v = d + 8 * v + hashP * (8 * v) := by ring
      rw [e, Nat.add_mul_mod_self_left]
      simp only [hashP]; omega
  have hk := key b.mag.limbs.reverse (Limbs.reverse.2 h.norm.1)
  rw [List.reverse_reverse] at hk
  unfold hashBigint hashInt
  rw [hk]
  unfold BigInt.toInt
  have hs := h.sign
  cases hsgn : b.sign with
  | neg =>
    simp only [decide_true]
    have hne : b.mag.limbs ≠ [] := fun hc => by rw [hs.2 hc] at hsgn; cases hsgn
    have hv : val b.mag.limbs ≠ 0 := fun hc => hne ((val_eq_zero h.norm.2).1 hc)
    rw [Int.natAbs_neg, Int.natAbs_natCast]
    congr 1
    simp; omega
  | zero =>
    have : b.mag.limbs = [] := hs.1 hsgn
    rw [this]; simp [val]
  | pos =>
    simp only
    have hn : ¬ ((val b.mag.limbs : Int) < 0) := by have := Int.natCast_nonneg (val b.mag.limbs); omega
    rw [Int.natAbs_natCast, decide_eq_false hn, decide_eq_false (by simp)]

attribute [local irreducible] powModP

theorem two61 (n : Nat) : 2 ^ n ≡ 2 ^ (n % 61) [MOD hashP] := by
  conv_lhs => rw [← Nat.div_add_mod n 61, pow_add, pow_mul]
  have h1 : 2 ^ 61 ≡ 1 [MOD hashP] := by decide
  have := (h1.pow (n / 61)).mul_right (2 ^ (n % 61))
  simpa using this

theorem two_mul61 (n : Nat) : 2 ^ (61 * n) ≡ 1 [MOD hashP] := by
  have := two61 (61 * n)
  simpa using this

theorem den_dvd {r : Rational} (hr : r.Wf) {m : Int} {k : Nat} (h : r.toRat = (m : ℚ) / 2 ^ k) :
    ∃ j, r.den.natAbs = 2 ^ j ∧ r.num * 2 ^ k = m * r.den := by
  have hd := hr.den_ne
  have e : r.num * 2 ^ k = m * r.den := by
    have h2 : (2 : ℚ) ^ k ≠ 0 := by positivity
    rw [Rational.toRat, div_eq_div_iff hd h2] at h
    exact_mod_cast h
  have hdvd : r.den.natAbs ∣ 2 ^ k := by
    have h1 : r.den.natAbs ∣ r.num.natAbs * 2 ^ k := by
      have : r.den ∣ r.num * 2 ^ k := ⟨m, by rw [e]; ring⟩
      have := Int.natAbs_dvd_natAbs.2 this
      rwa [Int.natAbs_mul, Int.natAbs_pow] at this
    exact (Nat.Coprime.symm hr.coprime).dvd_of_dvd_mul_left h1
  obtain ⟨j, _, hj⟩ := (Nat.dvd_prime_pow Nat.prime_two).1 hdvd
  exact ⟨j, hj, e⟩

theorem hashF64_eq {f : Nat} (h : fIsFinite f = true) {r : Rational} (hr : r.Wf) (he : r.toRat = f64Value f) :
    hashF64 f = hashRational r := by
  obtain ⟨m, e, h1, hm, he2, h2⟩ := decompose_spec h
  unfold hashF64
  have n1 : fIsNan f = false := by
    simp only [fIsFinite, decide_eq_true_eq] at h; simp [fIsNan, h]
  have n2 : fIsInf f = false := by
    simp only [fIsFinite, decide_eq_true_eq] at h; simp [fIsInf, h]
  have n3 : fIsNegInf f = false := by
    simp only [fIsFinite, decide_eq_true_eq] at h; simp [fIsNegInf, h]
  rw [n1, n2, n3, h1]
  simp only [Bool.false_eq_true, if_false]
  rw [h2] at he
  -- magnitudes
  have hp : 0 < hashP := by norm_num
  obtain ⟨k, j, hkj, hden, habs⟩ : ∃ k j : Nat, (e % 61).toNat + k ≡ 0 [MOD 61] ∧ r.den.natAbs = 2 ^ j ∧
      r.num.natAbs * 2 ^ k ≡ m * 2 ^ j [MOD hashP] := by
    by_cases hpos : 0 ≤ e
    · obtain ⟨n, rfl⟩ : ∃ n : Nat, e = n := ⟨e.toNat, by omega⟩
      have hx : r.toRat = (((if fSign f then -1 else 1) * ((m : Int) * 2 ^ n) : Int) : ℚ) / 2 ^ 0 := by
        rw [he, zpow_natCast]; split <;> push_cast <;> ring
      obtain ⟨j, j1, j2⟩ := den_dvd hr hx
      refine ⟨60 * n, j, ?_, j1, ?_⟩
      · have : ((n : Int) % 61).toNat = n % 61 := by omega
        rw [this, Nat.ModEq]; omega
      · have h3 : r.num.natAbs = m * 2 ^ n * 2 ^ j := by
          have := congrArg Int.natAbs j2
          simp only [pow_zero, mul_one, Int.natAbs_mul, Int.natAbs_pow, j1] at this
          rw [this]
          split <;> simp
        rw [h3, mul_assoc, mul_assoc]
        apply Nat.ModEq.mul_left
        have : 2 ^ n * (2 ^ j * 2 ^ (60 * n)) = 2 ^ (61 * n) * 2 ^ j := by
          rw [← pow_add, ← pow_add, ← pow_add]; congr 1; ring
        rw [this]
        have := (two_mul61 n).mul_right (2 ^ j)
        simpa using this
    · obtain ⟨n, rfl⟩ : ∃ n : Nat, e = -(n : Int) := ⟨(-e).toNat, by omega⟩
      have hx : r.toRat = (((if fSign f then -1 else 1) * (m : Int) : Int) : ℚ) / 2 ^ n := by
        rw [he, zpow_neg, zpow_natCast]; split <;> push_cast <;> ring
      obtain ⟨j, j1, j2⟩ := den_dvd hr hx
      refine ⟨n, j, ?_, j1, ?_⟩
      · rw [Nat.ModEq]; omega
      · have := congrArg Int.natAbs j2
        simp only [Int.natAbs_mul, Int.natAbs_pow, j1] at this
        have h4 : (if fSign f = true then (-1 : Int) else 1).natAbs = 1 := by split <;> rfl
        rw [h4, one_mul, Int.natAbs_natCast] at this
        have h5 : (2 : Int).natAbs = 2 := rfl
        rw [h5] at this
        rw [this]
  have hmodulus : mulModP (modP m) (powModP 2 (e % 61).toNat) =
      mulModP (hashInt |r.num|) (powModP (hashInt |r.den|) (hashP - 2)) := by
    have ⟨a1, a2⟩ := powModP_eq (base := 2) (exp := (e % 61).toNat) (by omega)
    have ⟨b1, b2⟩ := powModP_eq (base := hashInt |r.den|) (exp := hashP - 2) (by norm_num)
    rw [modP_eq (by omega), hashInt_nonneg (abs_nonneg _), Int.natAbs_abs]
    rw [hashInt_nonneg (abs_nonneg _), Int.natAbs_abs, hden] at b2 ⊢
    unfold mulModP
    show _ ≡ _ [MOD hashP]
    have L : m % hashP * powModP 2 (e % 61).toNat ≡ m * 2 ^ (e % 61).toNat [MOD hashP] := (modEq_mod m).mul a2
    have R : r.num.natAbs % hashP * powModP (2 ^ j % hashP) (hashP - 2) ≡ r.num.natAbs * (2 ^ j) ^ (hashP - 2) [MOD hashP] :=
      (modEq_mod _).mul (b2.trans ((modEq_mod _).pow _))
    refine L.trans (Nat.ModEq.trans ?_ R.symm)
    -- cancel the unit 2^j * 2^k
    have hcop : Nat.gcd hashP (2 ^ k * 2 ^ j) = 1 := by
      rw [← pow_add]
      exact Nat.Coprime.pow_right _ (by decide)
    apply Nat.ModEq.cancel_right_of_coprime hcop
    have l1 : m * 2 ^ (e % 61).toNat * (2 ^ k * 2 ^ j) ≡ m * 2 ^ j [MOD hashP] := by
      have : m * 2 ^ (e % 61).toNat * (2 ^ k * 2 ^ j) = m * 2 ^ j * 2 ^ ((e % 61).toNat + k) := by
        rw [pow_add]; ring
      rw [this]
      have h3 := two61 ((e % 61).toNat + k)
      rw [show ((e % 61).toNat + k) % 61 = 0 from hkj, pow_zero] at h3
      have := h3.mul_left (m * 2 ^ j)
      simpa using this
    have r1 : r.num.natAbs * (2 ^ j) ^ (hashP - 2) * (2 ^ k * 2 ^ j) ≡ r.num.natAbs * 2 ^ k [MOD hashP] := by
      have : r.num.natAbs * (2 ^ j) ^ (hashP - 2) * (2 ^ k * 2 ^ j) =
          r.num.natAbs * 2 ^ k * 2 ^ (j * (hashP - 2) + j) := by
        rw [pow_add, ← pow_mul]; ring
      rw [this]
      have h4 : j * (hashP - 2) + j = 61 * (j * 37800705069076950) := by
        have : hashP - 2 = 61 * 37800705069076950 - 1 := by norm_num
        rw [this]; omega
      rw [h4]
      have := (two_mul61 (j * 37800705069076950)).mul_left (r.num.natAbs * 2 ^ k)
      simpa using this
    exact l1.trans (habs.symm.trans r1.symm)
  unfold hashRational
  simp only
  rw [hmodulus]
  -- signs
  by_cases hz : mulModP (hashInt |r.num|) (powModP (hashInt |r.den|) (hashP - 2)) = 0
  · rw [hz]; simp [signedHash]
  · have hm0 : m ≠ 0 := by
      intro hc
      apply hz
      rw [← hmodulus, hc]
      simp [mulModP, modP, hashP]
    have hneg : r.isNegative = fSign f := by
      have hmq : (0 : ℚ) < m * 2 ^ e := by
        have : (0 : ℚ) < m := by exact_mod_cast Nat.pos_of_ne_zero hm0
        exact mul_pos this (zpow_pos (by norm_num) _)
      have hd : (0 : ℚ) < r.den := by exact_mod_cast hr.pos
      have hs : r.toRat < 0 ↔ r.num < 0 := by
        rw [Rational.toRat, div_lt_iff₀ hd, zero_mul]; exact_mod_cast Iff.rfl
      unfold Rational.isNegative
      cases hf : fSign f with
      | true =>
        rw [hf] at he
        have : r.num < 0 := hs.1 (by rw [he]; simp; exact hmq)
        simp [this]
      | false =>
        rw [hf] at he
        have : ¬ r.num < 0 := fun hc => by
          have := hs.2 hc
          rw [he] at this; simp at this; linarith
        simpa using this
    rw [hneg]

theorem hashRational_ofInt (n : Int) : hashRational (Rational.ofInt n) = hashInt n := by
  unfold hashRational Rational.ofInt Rational.isNegative hashInt
  simp only
  have hp : (1 : Int).natAbs % hashP = 1 := by norm_num
  have h1 : signedHash (decide (|n| < 0)) (|n|.natAbs % hashP) = n.natAbs % hashP := by
    have := hashInt_nonneg (abs_nonneg n)
    unfold hashInt at this; rw [this, Int.natAbs_abs]
  have h2 : signedHash (decide (|(1 : Int)| < 0)) (|(1 : Int)|.natAbs % hashP) = 1 := by decide
  rw [h1, h2]
  congr 1
  have ⟨b1, b2⟩ := powModP_eq (base := 1) (exp := hashP - 2) (by norm_num)
  rw [one_pow] at b2
  have : powModP 1 (hashP - 2) = 1 := Nat.ModEq.eq_of_lt_of_lt b2 b1 (by norm_num)
  rw [this, mulModP, mul_one, Nat.mod_mod]

end Verif.Num
