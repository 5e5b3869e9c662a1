import Verif.Data.Div
import Mathlib.Tactic.Ring
import Mathlib.Tactic.NormNum
import Mathlib.Tactic.Positivity
import Mathlib.Algebra.Order.Ring.Nat

/-! # Lemmas: `LogosDivU64` -/
namespace Verif.Data

theorem and_pred_pow : ∀ (f d : Nat), 0 < d → d < 2 ^ f → d &&& (d - 1) = 0 → d = 2 ^ tzLoop f d := by
  intro f
  induction f with
  | zero => intro d h0 h1 _; simp at h1; omega
  | succ f ih =>
    intro d h0 h1 h
    have h2 : (d / 2) &&& ((d - 1) / 2) = 0 := by rw [← Nat.and_div_two, h]
    by_cases ho : d % 2 = 1
    · have e1 : (d - 1) / 2 = d / 2 := by omega
      rw [e1, Nat.and_self] at h2
      have : d = 1 := by omega
      subst this; simp [tzLoop]
    · have e1 : (d - 1) / 2 = d / 2 - 1 := by omega
      rw [e1] at h2
      have := ih (d / 2) (by omega) (by rw [pow_succ] at h1; omega) h2
      simp only [tzLoop, if_neg ho]
      rw [pow_succ, ← this]; omega

theorem tzLoop_lt (f d : Nat) (h0 : 0 < d) (h1 : d < 2 ^ f) : tzLoop f d < f := by
  induction f generalizing d with
  | zero => simp at h1; omega
  | succ f ih =>
    by_cases ho : d % 2 = 1
    · simp [tzLoop, ho]
    · simp only [tzLoop, if_neg ho]
      have := ih (d / 2) (by omega) (by rw [pow_succ] at h1; omega)
      omega

theorem pow_and_pred (k : Nat) : (2 ^ k) &&& (2 ^ k - 1) = 0 := by
  rw [Nat.and_two_pow_sub_one_eq_mod]; simp

/-- The magic-number theorem: `M` just above `2^P / d` divides exactly below `2^K`. -/
theorem magic_div (M d P e n N : Nat) (hd : 0 < d) (hM : M * d = P + e) (he : e * N ≤ P)
    (hn : n < N) (hP : 0 < P) : M * n / P = n / d := by
  have hq := Nat.div_add_mod n d
  have hr := Nat.mod_lt n hd
  set q := n / d with hqd
  set r := n % d with hrd
  apply Nat.div_eq_of_lt_le
  · -- q * P ≤ M * n
    have : q * d ≤ n := by rw [Nat.mul_comm]; omega
    have h1 : q * (P + e) ≤ M * n := by
      rw [← hM]
      calc q * (M * d) = M * (q * d) := by ring
        _ ≤ M * n := Nat.mul_le_mul_left _ this
    calc q * P ≤ q * (P + e) := Nat.mul_le_mul_left _ (Nat.le_add_right _ _)
      _ ≤ _ := h1
  · -- M * n < (q+1) * P
    have h2 : d * (M * n) < d * ((q + 1) * P) := by
      have e1 : d * (M * n) = (P + e) * n := by rw [← hM]; ring
      rw [e1]
      have h3 : e * n < P := by
        rcases Nat.eq_zero_or_pos e with rfl | hpos
        · simpa using hP
        · calc e * n < e * N := Nat.mul_lt_mul_of_pos_left hn hpos
            _ ≤ P := he
      have h4 : n + 1 ≤ d * (q + 1) := by rw [Nat.mul_add]; omega
      calc (P + e) * n = P * n + e * n := by ring
        _ < P * n + P := by omega
        _ = P * (n + 1) := by ring
        _ ≤ P * (d * (q + 1)) := Nat.mul_le_mul_left _ h4
        _ = d * ((q + 1) * P) := by ring
    exact Nat.lt_of_mul_lt_mul_left h2

theorem and63 : ∀ a < 64, a &&& 63 = a ∧ (a ||| 64) &&& 63 = a ∧ (a ||| 128) &&& 63 = a ∧
    a &&& 128 = 0 ∧ (a ||| 64) &&& 128 = 0 ∧ (a ||| 128) &&& 128 ≠ 0 ∧ a &&& 64 = 0 ∧
    (a ||| 64) &&& 64 ≠ 0 := by decide +kernel

theorem log2_bounds (d : Nat) (hd : d ≠ 0) : 2 ^ Nat.log2 d ≤ d ∧ d < 2 ^ (Nat.log2 d + 1) :=
  ⟨Nat.log2_self_le hd, Nat.lt_log2_self⟩

/-- What a built divider is: one of the three forms, with its magic number characterised. -/
inductive DivForm (s : DivU64) : Prop
  | shift (k : Nat) (hk : k < 64) (hm : s.more = k ||| 128) (hd : s.d = 2 ^ k)
  | plain (k e : Nat) (hk : k < 64) (hm : s.more = k) (hM : s.magic * s.d = 2 ^ (64 + k) + e)
      (he : e < 2 ^ k) (hd : 0 < s.d) (hlt : s.magic < W64)
  | wide (k e : Nat) (hk : k < 64) (hm : s.more = k ||| 64)
      (hM : (s.magic + W64) * s.d = 2 ^ (65 + k) + e) (he : e ≤ 2 ^ (k + 1)) (hd : 0 < s.d)
      (hlt : s.magic < W64)

theorem divMagic_form (d : Nat) (h0 : d ≠ 0) (h1 : d < W64) (hp : d &&& (d - 1) ≠ 0)
    (k : Nat) (hk : k < 64) (b1 : 2 ^ k ≤ d) (b2 : d < 2 ^ (k + 1)) :
    ∃ s, divMagic d k (2 ^ (64 + k) / d % W64) (2 ^ (64 + k) % d % W64)
      (d - 2 ^ (64 + k) % d % W64) = some s ∧ s.d = d ∧ DivForm s := by
  have hdpos : 0 < d := Nat.pos_of_ne_zero h0
  have b1' : 2 ^ k < d := by
    rcases Nat.lt_or_ge (2 ^ k) d with h | h
    · exact h
    · exfalso; apply hp
      have : d = 2 ^ k := by omega
      rw [this]; exact pow_and_pred k
  have hA : 2 ^ (64 + k) = W64 * 2 ^ k := by rw [pow_add]; norm_num
  have hA5 : 2 ^ (65 + k) = 2 * (W64 * 2 ^ k) := by rw [show 65 + k = 1 + (64 + k) by omega, pow_add 2 1, hA]; norm_num
  have h2k : 2 ^ (k + 1) = 2 * 2 ^ k := by rw [pow_succ]; ring
  have hkb : 2 ^ k ≤ 2 ^ 63 := Nat.pow_le_pow_right (by decide) (by omega)
  have hmod := Nat.div_add_mod (2 ^ (64 + k)) d
  have hrlt := Nat.mod_lt (2 ^ (64 + k)) hdpos
  -- m ≤ 2^64 - 2
  have hm2 : 2 ^ (64 + k) / d < W64 - 1 := by
    rw [Nat.div_lt_iff_lt_mul hdpos, hA]
    have : (W64 - 1) * (2 ^ k + 1) ≤ (W64 - 1) * d := Nat.mul_le_mul_left _ b1'
    have e : (W64 - 1) * (2 ^ k + 1) = W64 * 2 ^ k + (W64 - 1) - 2 ^ k := by
      generalize 2 ^ k = x at *; omega
    have : (2:Nat) ^ 63 = 9223372036854775808 := by norm_num
    omega
  have hmW : 2 ^ (64 + k) / d % W64 = 2 ^ (64 + k) / d := Nat.mod_eq_of_lt (by omega)
  have hrW : 2 ^ (64 + k) % d % W64 = 2 ^ (64 + k) % d := Nat.mod_eq_of_lt (by omega)
  rw [hmW, hrW]
  generalize hmv : 2 ^ (64 + k) / d = m at *
  generalize hrv : 2 ^ (64 + k) % d = rem at *
  generalize hxv : 2 ^ k = x at *
  have hmul : d * (m + 1) = 2 ^ (64 + k) + (d - rem) := by rw [Nat.mul_add]; omega
  unfold divMagic
  rw [Nat.one_shiftLeft, hxv]
  by_cases hc : d - rem < x
  · rw [if_pos hc]
    have : ckAdd m 1 = some (m + 1) := by unfold ckAdd; rw [if_pos (by omega)]
    rw [this]
    refine ⟨_, rfl, rfl, DivForm.plain k (d - rem) hk rfl ?_ (by rw [hxv]; exact hc) hdpos ?_⟩
    · show (m + 1) * d = _; rw [Nat.mul_comm]; exact hmul
    · show m + 1 < W64; omega
  · rw [if_neg hc]
    -- the bump bit
    have hb : (rem * 2 % W64 ≥ d ∨ rem * 2 % W64 < rem) ↔ 2 * rem ≥ d := by omega
    have hgen : ∀ bump : Nat, bump ≤ 1 → (bump = 1 ↔ 2 * rem ≥ d) →
        ∃ s, (match ckAdd ((m * 2 % W64 + bump) % W64) 1 with
          | none => none
          | some magic => some (⟨magic, k ||| 64, d⟩ : DivU64)) = some s ∧ s.d = d ∧ DivForm s := by
      intro bump hb1 hbi
      -- the 65-bit magic, M = 2m + bump + 1
      have hsum : d * (2 * m + bump + 1) = 2 ^ (65 + k) + (d - (2 * rem - bump * d)) ∧
          2 * rem - bump * d < d ∧ bump * d ≤ 2 * rem := by
        rw [hA5, ← hA]
        have e3 : d * (2 * m + bump + 1) = 2 * (d * m) + bump * d + d := by ring
        rcases Nat.le_one_iff_eq_zero_or_eq_one.mp hb1 with h | h
        · have hnot : ¬ 2 * rem ≥ d := by rw [← hbi]; omega
          subst h; rw [e3]; omega
        · have hy : 2 * rem ≥ d := hbi.mp h
          subst h; rw [e3]; omega
      obtain ⟨hs1, hs2, hs3⟩ := hsum
      -- M in [2^64 + 1, 2^65 - 1]
      have hlo : W64 ≤ 2 * m + bump := by
        by_contra hcon
        have hle : 2 * m + bump + 1 ≤ W64 := by omega
        have h5 := Nat.mul_le_mul_left d hle
        rw [hs1, hA5] at h5
        rw [h2k] at b2
        omega
      have hhi : 2 * m + bump < 2 * W64 - 1 := by
        have : m ≤ W64 - 2 := by omega
        omega
      have hw : (m * 2 % W64 + bump) % W64 = 2 * m + bump - W64 := by omega
      rw [hw]
      have hck : ckAdd (2 * m + bump - W64) 1 = some (2 * m + bump - W64 + 1) := by
        unfold ckAdd; rw [if_pos (by omega)]
      rw [hck]
      refine ⟨_, rfl, rfl, DivForm.wide k (d - (2 * rem - bump * d)) hk rfl ?_ ?_ hdpos ?_⟩
      · show (2 * m + bump - W64 + 1 + W64) * d = _
        rw [show 2 * m + bump - W64 + 1 + W64 = 2 * m + bump + 1 by omega, Nat.mul_comm]
        exact hs1
      · rw [h2k]; rw [h2k] at b2; omega
      · show 2 * m + bump - W64 + 1 < W64; omega
    by_cases hbb : rem * 2 % W64 ≥ d ∨ rem * 2 % W64 < rem
    · simp only [if_pos hbb]
      exact hgen 1 (by omega) (by simpa using hb.mp hbb)
    · simp only [if_neg hbb]
      exact hgen 0 (by omega) (by rw [← hb]; simpa using hbb)

theorem new_form (d : Nat) (h0 : d ≠ 0) (h1 : d < W64) :
    ∃ s, DivU64.new d = some s ∧ s.d = d ∧ DivForm s := by
  unfold DivU64.new
  rw [if_neg h0]
  by_cases hp : d &&& (d - 1) = 0
  · rw [if_pos hp]
    have hd64 : d < 2 ^ 64 := by have : (2:Nat)^64 = W64 := by norm_num
                                 omega
    exact ⟨_, rfl, rfl, DivForm.shift (trailingZeros d)
      (tzLoop_lt 64 d (Nat.pos_of_ne_zero h0) hd64) rfl
      (and_pred_pow 64 d (Nat.pos_of_ne_zero h0) hd64 hp)⟩
  · rw [if_neg hp]
    obtain ⟨b1, b2⟩ := log2_bounds d h0
    have hk : Nat.log2 d < 64 := by
      rw [Nat.log2_lt h0]
      have : (2:Nat)^64 = W64 := by norm_num
      omega
    have hfl : 63 - leadingZeros d = Nat.log2 d := by
      unfold leadingZeros; rw [if_neg h0]; omega
    simp only [hfl, Nat.one_shiftLeft]
    have hr : 2 ^ (64 + Nat.log2 d) % d % W64 ≤ d :=
      (Nat.mod_le _ _).trans (Nat.mod_lt _ (Nat.pos_of_ne_zero h0)).le
    have : ckSub d (2 ^ (64 + Nat.log2 d) % d % W64) = some (d - 2 ^ (64 + Nat.log2 d) % d % W64) := by
      unfold ckSub; rw [if_pos hr]
    rw [this]
    exact divMagic_form d h0 h1 hp _ hk b1 b2

theorem div_form (s : DivU64) (h : DivForm s) (n : Nat) (hn : n < W64) :
    s.div n = some (n / s.d) := by
  have hW : (2:Nat) ^ 64 = W64 := by norm_num
  unfold DivU64.div
  cases h with
  | shift k hk hm hd =>
    obtain ⟨a1, a2, a3, a4, a5, a6, a7, a8⟩ := and63 k hk
    rw [hm, if_pos a6, a3, Nat.shiftRight_eq_div_pow, hd]
  | plain k e hk hm hM he hd hlt =>
    obtain ⟨a1, a2, a3, a4, a5, a6, a7, a8⟩ := and63 k hk
    have hq : s.magic * n / W64 < W64 := by
      rw [Nat.div_lt_iff_lt_mul (by norm_num)]
      calc s.magic * n ≤ s.magic * W64 := Nat.mul_le_mul_left _ hn.le
        _ < W64 * W64 := Nat.mul_lt_mul_of_pos_right hlt (by norm_num)
    simp only [hm, a4, a7, Nat.shiftRight_eq_div_pow, hW, ne_eq, not_true_eq_false, if_false,
      Nat.mod_eq_of_lt hq, Nat.div_div_eq_div_mul]
    rw [← hW, ← pow_add]
    congr 1
    refine magic_div _ _ _ e n (2 ^ 64) hd hM ?_ (by omega) (by positivity)
    rw [pow_add, Nat.mul_comm]
    exact Nat.mul_le_mul_left _ he.le
  | wide k e hk hm hM he hd hlt =>
    obtain ⟨a1, a2, a3, a4, a5, a6, a7, a8⟩ := and63 k hk
    have hq : s.magic * n / W64 ≤ n := by
      calc s.magic * n / W64 ≤ W64 * n / W64 := Nat.div_le_div_right (Nat.mul_le_mul_right _ hlt.le)
        _ = n := Nat.mul_div_cancel_left _ (by norm_num)
    have hqW : s.magic * n / W64 % W64 = s.magic * n / W64 := Nat.mod_eq_of_lt (by omega)
    have hmain : (s.magic + W64) * n / 2 ^ (65 + k) = n / s.d := by
      refine magic_div _ _ _ e n (2 ^ 64) hd hM ?_ (by omega) (by positivity)
      calc e * 2 ^ 64 ≤ 2 ^ (k + 1) * 2 ^ 64 := Nat.mul_le_mul_right _ he
        _ = 2 ^ (65 + k) := by rw [← pow_add]; congr 1; omega
    have hsplit : (s.magic + W64) * n / W64 = s.magic * n / W64 + n := by
      rw [Nat.add_mul]; omega
    have hck : ckSub n (s.magic * n / W64) = some (n - s.magic * n / W64) := by
      unfold ckSub; rw [if_pos hq]
    simp only [hm, a5, a2, Nat.shiftRight_eq_div_pow, hW, ne_eq, not_true_eq_false, if_false,
      a8, not_false_eq_true, if_true, hqW, hck]
    congr 1
    rw [← hmain, show 65 + k = 64 + (1 + k) by omega, pow_add 2 64, hW, ← Nat.div_div_eq_div_mul,
      hsplit, pow_add, pow_one, ← Nat.div_div_eq_div_mul]
    congr 1
    omega

end Verif.Data
