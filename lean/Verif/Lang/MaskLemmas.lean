import Verif.Lang.Fold
import Mathlib.Tactic.NormNum

/-! # Testing divisibility by a power of two with a mask -/
namespace Verif.Lang

theorem narrow_iff (n : Int) : narrow n = true ↔ -(2 ^ 63) ≤ n ∧ n < 2 ^ 63 := by
  simp [narrow]

theorem toNat_ofInt_nonneg {n : Int} (h0 : 0 ≤ n) (h : n < 2 ^ 63) :
    (BitVec.ofInt 64 n).toNat = n.toNat := by
  rw [BitVec.toNat_ofInt]
  congr 1
  omega

theorem toInt_eq_zero_iff (x : BitVec 64) : x.toInt = 0 ↔ x.toNat = 0 := by
  constructor
  · intro h
    have : x = 0#64 := BitVec.toInt_inj.1 (by simpa using h)
    simp [this]
  · intro h
    have : x = 0#64 := BitVec.eq_of_toNat_eq (by simpa using h)
    simp [this]

theorem band_eq_zero_iff (a b : Int) :
    band a b = 0 ↔ (BitVec.ofInt 64 a).toNat &&& (BitVec.ofInt 64 b).toNat = 0 := by
  rw [band, toInt_eq_zero_iff, BitVec.toNat_and]

/-- `is_power_of_two` finds powers of two. -/
theorem isPow2_pow {k : Int} (h : isPow2 k = true) : ∃ j : Nat, k = 2 ^ j ∧ 1 < k ∧ k < 2 ^ 63 := by
  simp only [isPow2, Bool.and_eq_true, decide_eq_true_eq, narrow_iff, beq_iff_eq] at h
  obtain ⟨⟨h1, _, h2⟩, h3⟩ := h
  rw [band_eq_zero_iff, toNat_ofInt_nonneg (by omega) h2, toNat_ofInt_nonneg (by omega) (by omega)] at h3
  have h4 : (k - 1).toNat = k.toNat - 1 := by omega
  rw [h4] at h3
  have hp := (Nat.and_sub_one_eq_zero_iff_isPowerOfTwo (n := k.toNat) (by omega)).1 h3
  obtain ⟨j, hj⟩ := hp
  refine ⟨j, ?_, h1, h2⟩
  have : (k.toNat : Int) = ((2 ^ j : Nat) : Int) := by exact_mod_cast hj
  rw [Int.toNat_of_nonneg (by omega)] at this
  rw [this]; norm_cast

/-- A number is divisible by the power of two `k` exactly when its low bits vanish. -/
theorem mask_iff {n k : Int} (hk : isPow2 k = true) (hn : narrow n = true) :
    n.tmod k = 0 ↔ band n (k - 1) = 0 := by
  obtain ⟨j, hj, h1, h2⟩ := isPow2_pow hk
  rw [band_eq_zero_iff, toNat_ofInt_nonneg (n := k - 1) (by omega) (by omega)]
  have hk1 : (k - 1).toNat = 2 ^ j - 1 := by
    have : ((2 ^ j : Nat) : Int) = k := by rw [hj]; norm_cast
    omega
  rw [hk1, Nat.and_two_pow_sub_one_eq_mod, BitVec.toNat_ofInt, ← Int.dvd_iff_tmod_eq_zero]
  have hj63 : j < 63 := by
    rcases Nat.lt_or_ge j 63 with h | h
    · exact h
    · exfalso
      have : (2 : Int) ^ 63 ≤ 2 ^ j := by
        exact_mod_cast Nat.pow_le_pow_right (by omega) h
      omega
  have hkn : ((2 ^ j : Nat) : Int) = k := by rw [hj]; norm_cast
  have hdvd : ((2 ^ j : Nat) : Int) ∣ ((2 ^ 64 : Nat) : Int) := by
    exact_mod_cast Nat.pow_dvd_pow 2 (by omega)
  have hnn : 0 ≤ n % ((2 ^ 64 : Nat) : Int) := Int.emod_nonneg _ (by norm_num)
  rw [← Nat.dvd_iff_mod_eq_zero]
  rw [← Int.natCast_dvd_natCast, Int.toNat_of_nonneg hnn, hkn]
  rw [Int.dvd_iff_emod_eq_zero, Int.dvd_iff_emod_eq_zero, Int.emod_emod_of_dvd _ (hkn ▸ hdvd)]

/-- A power of two in the sense of the specification. -/
theorem isPow2_log {k : Int} (h : isPow2 k = true) : 1 < k ∧ k = 2 ^ k.toNat.log2 := by
  obtain ⟨j, hj, h1, _⟩ := isPow2_pow h
  refine ⟨h1, ?_⟩
  have : k.toNat = 2 ^ j := by
    have : ((2 ^ j : Nat) : Int) = k := by rw [hj]; norm_cast
    omega
  rw [this, Nat.log2_two_pow, hj]

end Verif.Lang
