import Verif.Num.Rational

/-!
# Dimensions (`crates/logicaffeine_base/src/dimension.rs`)

Exponents are pairs of 32-bit integers.  Arithmetic on them wraps around, as in an optimised build;
`none` is a panic (a zero denominator, or the one division that overflows).  A debug build panics
where this model wraps.  Names of dimensions and their text are not modelled.
-/
namespace Verif.Num

/-- `i32` arithmetic without overflow checks. -/
def wrap32 (n : Int) : Int := Int.bmod n (2 ^ 32)

/-- The loop of `igcd` (`dimension.rs` 83–87).  `%` panics for the least number and `-1`. -/
def igcdLoop : Nat → Int → Int → Option Int
  | 0, _, _ => none
  | fuel + 1, a, b =>
    if b = 0 then some a
    else if a = -(2 ^ 31) ∧ b = -1 then none
    else igcdLoop fuel b (a.tmod b)

/-- `igcd` (`dimension.rs` 80–89). -/
def igcd (a b : Int) : Option Int :=
  igcdLoop ((wrap32 |b|).natAbs + 1) (wrap32 |a|) (wrap32 |b|)

/-- `/` on `i32`. -/
def div32 (a b : Int) : Option Int :=
  if b = 0 ∨ (a = -(2 ^ 31) ∧ b = -1) then none else some (a.tdiv b)

/-- `Exp` (`dimension.rs` 95–98). -/
structure Exp where
  num : Int
  den : Int
deriving DecidableEq, Repr

namespace Exp

/-- `Exp::ZERO` (`dimension.rs` 102). -/
def zero : Exp := ⟨0, 1⟩

/-- `Exp::int` (`dimension.rs` 123–125). -/
def int (n : Int) : Exp := ⟨n, 1⟩

/-- `Exp::new` (`dimension.rs` 107–119). -/
def new (num den : Int) : Option Exp :=
  if den = 0 then none
  else
    let num' := if den < 0 then wrap32 (-num) else num
    let den' := if den < 0 then wrap32 (-den) else den
    if num' = 0 then some zero
    else do
      let g ← igcd num' den'
      let n ← div32 num' g
      let d ← div32 den' g
      return ⟨n, d⟩

/-- `Exp::add` (`dimension.rs` 141–143). -/
def add (a b : Exp) : Option Exp :=
  new (wrap32 (wrap32 (a.num * b.den) + wrap32 (b.num * a.den))) (wrap32 (a.den * b.den))

/-- `Exp::sub` (`dimension.rs` 146–148). -/
def sub (a b : Exp) : Option Exp :=
  new (wrap32 (wrap32 (a.num * b.den) - wrap32 (b.num * a.den))) (wrap32 (a.den * b.den))

/-- `Exp::neg` (`dimension.rs` 151–153). -/
def neg (a : Exp) : Exp := ⟨wrap32 (-a.num), a.den⟩

/-- `Exp::scale` (`dimension.rs` 156–158). -/
def scale (a : Exp) (k : Int) : Option Exp := new (wrap32 (a.num * k)) a.den

/-- `Exp::div_int` (`dimension.rs` 161–163). -/
def divInt (a : Exp) (k : Int) : Option Exp := new a.num (wrap32 (a.den * k))

/-- The exponent as a number. -/
def val (a : Exp) : ℚ := (a.num : ℚ) / a.den

/-- The invariant: lowest terms, positive denominator, both in range. -/
structure Wf (a : Exp) : Prop where
  pos : 0 < a.den
  coprime : Nat.Coprime a.num.natAbs a.den.natAbs
  num_le : |a.num| < 2 ^ 31
  den_le : a.den < 2 ^ 31

end Exp

/-- `Dimension` (`dimension.rs` 180–182): the ten exponents. -/
abbrev Dimension := List Exp

namespace Dimension

/-- `DIMENSIONLESS` (`dimension.rs` 186). -/
def dimensionless : Dimension := List.replicate 10 .zero

/-- `Dimension::base` (`dimension.rs` 189–193) of the axis with the given index. -/
def base (i : Nat) : Dimension := dimensionless.set i (.int 1)

/-- The loop of `mul` and `div` (`dimension.rs` 216–218 and 225–227). -/
def zipOp (f : Exp → Exp → Option Exp) : Dimension → Dimension → Option Dimension
  | a :: as, b :: bs => do
    let c ← f a b
    let cs ← zipOp f as bs
    return c :: cs
  | _, _ => some []

/-- `Dimension::mul` (`dimension.rs` 214–220). -/
def mul : Dimension → Dimension → Option Dimension := zipOp Exp.add

/-- `Dimension::div` (`dimension.rs` 223–229). -/
def div : Dimension → Dimension → Option Dimension := zipOp Exp.sub

/-- `Dimension::recip` (`dimension.rs` 232–238). -/
def recip (d : Dimension) : Dimension := d.map .neg

/-- `Dimension::powi` (`dimension.rs` 241–247). -/
def powi (d : Dimension) (k : Int) : Option Dimension := d.mapM (·.scale k)

/-- `Dimension::nth_root` (`dimension.rs` 250–256). -/
def nthRoot (d : Dimension) (k : Int) : Option Dimension := d.mapM (·.divInt k)

end Dimension

/-! ## Lemmas -/

theorem wrap32_id {n : Int} (h : |n| < 2 ^ 31) : wrap32 n = n := by
  rw [abs_lt] at h
  unfold wrap32
  rw [Int.bmod_eq_of_le_mul_two] <;> omega

theorem igcdLoop_eq {fuel : Nat} {a b : Int} (ha : 0 ≤ a) (hb : 0 ≤ b) (hf : b.natAbs < fuel) :
    igcdLoop fuel a b = some (Int.gcd a b : Int) := by
  induction fuel generalizing a b with
  | zero => omega
  | succ fuel ih =>
    rw [igcdLoop]
    by_cases h0 : b = 0
    · subst h0; simp [abs_of_nonneg ha]
    · rw [if_neg h0, if_neg (by omega), Int.tmod_eq_emod_of_nonneg ha]
      have h1 := Int.emod_nonneg a h0
      have h2 := Int.emod_lt_of_pos a (by omega : 0 < b)
      rw [ih hb h1 (by omega)]
      rw [Int.gcd_comm a b]
      congr 2
      rw [Int.gcd_comm b (a % b), Int.gcd_emod, Int.gcd_comm]

theorem igcd_eq {a b : Int} (ha : |a| < 2 ^ 31) (hb : |b| < 2 ^ 31) :
    igcd a b = some (Int.gcd a b : Int) := by
  unfold igcd
  rw [wrap32_id (by rwa [abs_abs]), wrap32_id (by rwa [abs_abs]),
    igcdLoop_eq (abs_nonneg a) (abs_nonneg b) (by omega)]
  simp [Int.gcd, Int.natAbs_abs]

namespace Exp

/-- `Exp::new` reduces a fraction. -/
theorem new_spec {n d : Int} (hn : |n| < 2 ^ 31) (hd : |d| < 2 ^ 31) (h0 : d ≠ 0) :
    ∃ r, new n d = some r ∧ r.Wf ∧ r.val = (n : ℚ) / d := by
  unfold new
  rw [if_neg h0]
  have key : ∀ n d : Int, |n| < 2 ^ 31 → 0 < d → d < 2 ^ 31 →
      ∃ r, (if n = 0 then some zero else (igcd n d).bind fun g => (div32 n g).bind fun x =>
        (div32 d g).bind fun y => some (⟨x, y⟩ : Exp)) = some r ∧ r.Wf ∧ r.val = (n : ℚ) / d := by
    intro n d hn hd hd'
    by_cases hn0 : n = 0
    · subst hn0
      exact ⟨zero, by simp, ⟨by decide, by decide, by decide, by decide⟩, by simp [zero, val]⟩
    · rw [if_neg hn0, igcd_eq hn (by rw [abs_of_pos hd]; exact hd')]
      have hg : 0 < Int.gcd n d := Int.gcd_pos_of_ne_zero_left _ hn0
      have hgz : (0:Int) < Int.gcd n d := by exact_mod_cast hg
      have e1 : n.tdiv (Int.gcd n d) = n / (Int.gcd n d) := Int.tdiv_eq_ediv_of_dvd (Int.gcd_dvd_left ..)
      have e2 : d.tdiv (Int.gcd n d) = d / (Int.gcd n d) := Int.tdiv_eq_ediv_of_dvd (Int.gcd_dvd_right ..)
      have d1 : div32 n (Int.gcd n d) = some (n / (Int.gcd n d)) := by
        unfold div32; rw [if_neg (by omega), e1]
      have d2 : div32 d (Int.gcd n d) = some (d / (Int.gcd n d)) := by
        unfold div32; rw [if_neg (by omega), e2]
      simp only [Option.bind_some, d1, d2]
      refine ⟨_, rfl, ?_⟩
      have hco := Int.gcd_ediv_gcd_ediv_gcd_of_ne_zero_left (m := d) hn0
      have hx : n / (Int.gcd n d) * (Int.gcd n d) = n := Int.ediv_mul_cancel (Int.gcd_dvd_left ..)
      have hy : d / (Int.gcd n d) * (Int.gcd n d) = d := Int.ediv_mul_cancel (Int.gcd_dvd_right ..)
      generalize n / (Int.gcd n d : Int) = x at *
      generalize d / (Int.gcd n d : Int) = y at *
      generalize (Int.gcd n d : Int) = g at hgz hx hy
      have hypos : 0 < y := by
        rcases lt_trichotomy y 0 with h | h | h
        · have := mul_neg_of_neg_of_pos h hgz; omega
        · rw [h] at hy; omega
        · exact h
      refine ⟨⟨hypos, hco, ?_, ?_⟩, ?_⟩
      · show |x| < 2 ^ 31
        refine lt_of_le_of_lt ?_ hn
        rw [← hx, abs_mul, abs_of_pos hgz]
        exact le_mul_of_one_le_right (abs_nonneg x) (by omega)
      · show y < 2 ^ 31
        refine lt_of_le_of_lt ?_ hd'
        rw [← hy]
        exact le_mul_of_one_le_right hypos.le (by omega)
      have hgq : (g : ℚ) ≠ 0 := by exact_mod_cast hgz.ne'
      show (x : ℚ) / y = n / d
      have h1 : (n : ℚ) = x * (g : ℚ) := by exact_mod_cast hx.symm
      have h2 : (d : ℚ) = y * (g : ℚ) := by exact_mod_cast hy.symm
      rw [h1, h2, mul_div_mul_right _ _ hgq]
  by_cases hneg : d < 0
  · simp only [hneg, if_true]
    rw [wrap32_id (by rwa [abs_neg]), wrap32_id (by rwa [abs_neg])]
    rw [abs_of_neg hneg] at hd
    obtain ⟨r, r1, r2, r3⟩ := key (-n) (-d) (by rwa [abs_neg]) (by omega) hd
    exact ⟨r, r1, r2, by rw [r3]; push_cast; rw [neg_div_neg_eq]⟩
  · simp only [hneg, if_false]
    rw [abs_of_pos (by omega)] at hd
    exact key n d hn (by omega) hd

theorem eq_of_val {a b : Exp} (ha : a.Wf) (hb : b.Wf) (h : a.val = b.val) : a = b := by
  have h1 := Rat.num_div_eq_of_coprime ha.pos ha.coprime
  have h2 := Rat.den_div_eq_of_coprime ha.pos ha.coprime
  have h3 := Rat.num_div_eq_of_coprime hb.pos hb.coprime
  have h4 := Rat.den_div_eq_of_coprime hb.pos hb.coprime
  unfold val at h
  rw [h] at h1 h2
  cases a; cases b
  simp only at *
  rw [← h1, ← h2, h3, h4]

theorem wf_int {n : Int} (h : |n| < 2 ^ 31) : (int n).Wf :=
  ⟨by show (0:Int) < 1; decide, by simp [int], h, by show (1:Int) < 2 ^ 31; decide⟩

theorem val_int (n : Int) : (int n).val = n := by simp [int, val]

/-- Adding exponents is exact as long as the products fit. -/
theorem add_spec {a b : Exp} (ha : a.Wf) (hb : b.Wf) (h1 : |a.num * b.den| < 2 ^ 31)
    (h2 : |b.num * a.den| < 2 ^ 31) (h3 : |a.num * b.den + b.num * a.den| < 2 ^ 31)
    (h4 : |a.den * b.den| < 2 ^ 31) :
    ∃ r, a.add b = some r ∧ r.Wf ∧ r.val = a.val + b.val := by
  unfold add
  rw [wrap32_id h1, wrap32_id h2, wrap32_id h3, wrap32_id h4]
  have pa := ha.pos
  have pb := hb.pos
  obtain ⟨r, r1, r2, r3⟩ := new_spec h3 h4 (mul_pos pa pb).ne'
  refine ⟨r, r1, r2, ?_⟩
  have qa : (a.den : ℚ) ≠ 0 := by exact_mod_cast pa.ne'
  have qb : (b.den : ℚ) ≠ 0 := by exact_mod_cast pb.ne'
  rw [r3]
  unfold val
  push_cast
  field_simp

theorem sub_spec {a b : Exp} (ha : a.Wf) (hb : b.Wf) (h1 : |a.num * b.den| < 2 ^ 31)
    (h2 : |b.num * a.den| < 2 ^ 31) (h3 : |a.num * b.den - b.num * a.den| < 2 ^ 31)
    (h4 : |a.den * b.den| < 2 ^ 31) :
    ∃ r, a.sub b = some r ∧ r.Wf ∧ r.val = a.val - b.val := by
  unfold sub
  rw [wrap32_id h1, wrap32_id h2, wrap32_id h3, wrap32_id h4]
  have pa := ha.pos
  have pb := hb.pos
  obtain ⟨r, r1, r2, r3⟩ := new_spec h3 h4 (mul_pos pa pb).ne'
  refine ⟨r, r1, r2, ?_⟩
  have qa : (a.den : ℚ) ≠ 0 := by exact_mod_cast pa.ne'
  have qb : (b.den : ℚ) ≠ 0 := by exact_mod_cast pb.ne'
  rw [r3]
  unfold val
  push_cast
  field_simp

theorem neg_spec {a : Exp} (ha : a.Wf) : a.neg.Wf ∧ a.neg.val = -a.val := by
  have : wrap32 (-a.num) = -a.num := wrap32_id (by rw [abs_neg]; exact ha.num_le)
  unfold neg
  rw [this]
  refine ⟨⟨ha.pos, by simpa using ha.coprime, by simpa using ha.num_le, ha.den_le⟩, ?_⟩
  simp [val, neg_div]

theorem scale_spec {a : Exp} (ha : a.Wf) {k : Int} (h : |a.num * k| < 2 ^ 31) :
    ∃ r, a.scale k = some r ∧ r.Wf ∧ r.val = a.val * k := by
  unfold scale
  rw [wrap32_id h]
  obtain ⟨r, r1, r2, r3⟩ := new_spec h (by rw [abs_of_pos ha.pos]; exact ha.den_le) ha.pos.ne'
  refine ⟨r, r1, r2, ?_⟩
  rw [r3]
  unfold val
  push_cast
  ring

theorem divInt_spec {a : Exp} (ha : a.Wf) {k : Int} (hk : k ≠ 0) (h : |a.den * k| < 2 ^ 31) :
    ∃ r, a.divInt k = some r ∧ r.Wf ∧ r.val = a.val / k := by
  unfold divInt
  rw [wrap32_id h]
  obtain ⟨r, r1, r2, r3⟩ := new_spec ha.num_le h (mul_ne_zero ha.pos.ne' hk)
  refine ⟨r, r1, r2, ?_⟩
  rw [r3]
  unfold val
  push_cast
  rw [div_div]

/-- Whole exponents add as long as the sum fits. -/
theorem add_int {m n : Int} (hm : |m| < 2 ^ 31) (hn : |n| < 2 ^ 31) (h : |m + n| < 2 ^ 31) :
    (int m).add (int n) = some (int (m + n)) := by
  obtain ⟨r, r1, r2, r3⟩ := add_spec (wf_int hm) (wf_int hn) (by simpa [int] using hm)
    (by simpa [int] using hn) (by simpa [int] using h) (by simp [int])
  rw [r1, eq_of_val r2 (wf_int h) (by rw [r3, val_int, val_int, val_int]; push_cast; rfl)]

theorem sub_int {m n : Int} (hm : |m| < 2 ^ 31) (hn : |n| < 2 ^ 31) (h : |m - n| < 2 ^ 31) :
    (int m).sub (int n) = some (int (m - n)) := by
  obtain ⟨r, r1, r2, r3⟩ := sub_spec (wf_int hm) (wf_int hn) (by simpa [int] using hm)
    (by simpa [int] using hn) (by simpa [int] using h) (by simp [int])
  rw [r1, eq_of_val r2 (wf_int h) (by rw [r3, val_int, val_int, val_int]; push_cast; rfl)]

end Exp

theorem int_injective : Function.Injective Exp.int := by
  intro a b h
  cases h
  rfl

theorem mul_int : ∀ {ms ns : List Int}, (∀ m ∈ ms, |m| < 2 ^ 31) → (∀ n ∈ ns, |n| < 2 ^ 31) →
    (∀ k ∈ List.zipWith (· + ·) ms ns, |k| < 2 ^ 31) →
    Dimension.mul (ms.map .int) (ns.map .int) = some ((List.zipWith (· + ·) ms ns).map .int)
  | [], _, _, _, _ => rfl
  | _ :: _, [], _, _, _ => rfl
  | m :: ms, n :: ns, h1, h2, h3 => by
    simp only [List.forall_mem_cons, List.zipWith_cons_cons] at h1 h2 h3
    have ih := mul_int h1.2 h2.2 h3.2
    simp only [Dimension.mul] at ih ⊢
    simp only [List.map_cons, Dimension.zipOp, Exp.add_int h1.1 h2.1 h3.1, ih, List.zipWith_cons_cons]
    rfl

theorem div_int : ∀ {ms ns : List Int}, (∀ m ∈ ms, |m| < 2 ^ 31) → (∀ n ∈ ns, |n| < 2 ^ 31) →
    (∀ k ∈ List.zipWith (· - ·) ms ns, |k| < 2 ^ 31) →
    Dimension.div (ms.map .int) (ns.map .int) = some ((List.zipWith (· - ·) ms ns).map .int)
  | [], _, _, _, _ => rfl
  | _ :: _, [], _, _, _ => rfl
  | m :: ms, n :: ns, h1, h2, h3 => by
    simp only [List.forall_mem_cons, List.zipWith_cons_cons] at h1 h2 h3
    have ih := div_int h1.2 h2.2 h3.2
    simp only [Dimension.div] at ih ⊢
    simp only [List.map_cons, Dimension.zipOp, Exp.sub_int h1.1 h2.1 h3.1, ih, List.zipWith_cons_cons]
    rfl

end Verif.Num
