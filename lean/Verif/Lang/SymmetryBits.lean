import Verif.Lang.Symmetry
import Mathlib.Algebra.BigOperators.Intervals
import Mathlib.Algebra.BigOperators.Ring.Finset
import Mathlib.Algebra.Order.BigOperators.Group.Finset
import Mathlib.Tactic.Ring
/-!
# Bits, and the count of a search and of its mirror image

Lemmas for C116.
-/
namespace Verif.Lang.Symm
open Finset

theorem fullMask_bit {n j : Nat} (hn : n < 64) : (fullMask n).getLsbD j = decide (j < n) := by
  have h : (fullMask n).toNat = 2 ^ n - 1 := by
    have h1 : 2 ^ n < 2 ^ 64 := Nat.pow_lt_pow_right (by omega) hn
    have h2 : 1 ≤ 2 ^ n := Nat.one_le_two_pow
    simp only [fullMask, BitVec.toNat_sub, BitVec.toNat_shiftLeft, BitVec.toNat_ofNat, Nat.shiftLeft_eq]
    norm_num at h1 h2 ⊢
    omega
  rw [BitVec.getLsbD, h, Nat.testBit_two_pow_sub_one]

private theorem bit_test (x : BitVec 64) {i : Nat} (hi : i < 64) : x.sshiftRight i &&& 1#64 ≠ 0#64 ↔ x.getLsbD i = true := by
  constructor
  · intro h
    by_contra hx
    apply h
    apply BitVec.eq_of_getLsbD_eq
    intro j hj
    rcases Nat.eq_zero_or_pos j with rfl | hj'
    · rw [BitVec.getLsbD_and, BitVec.getLsbD_sshiftRight]
      simp only [Nat.add_zero, hi, if_true]
      simp only [Bool.not_eq_true] at hx
      rw [hx]
      simp
    · have : (1#64).getLsbD j = false := by simp [BitVec.getLsbD_one]; omega
      simp [this]
  · intro h he
    have := congrArg (fun y => y.getLsbD 0) he
    simp only [BitVec.getLsbD_and, BitVec.getLsbD_sshiftRight, Nat.add_zero, hi, if_true, h] at this
    simp at this

private theorem rev_fold (x : BitVec 64) {n : Nat} (hn : n ≤ 64) (j : Nat) : ∀ m, m ≤ n →
    ((List.range m).foldl (fun r i => if x.sshiftRight i &&& 1#64 ≠ 0#64 then r ||| 1#64 <<< (n - 1 - i) else r) 0#64).getLsbD j =
      (decide (j < n) && decide (n - 1 - j < m) && x.getLsbD (n - 1 - j)) := by
  intro m
  induction m with
  | zero => intro _; simp
  | succ m ih =>
    intro hm
    rw [List.range_succ, List.foldl_append, List.foldl_cons, List.foldl_nil]
    by_cases hb : x.getLsbD m = true
    · rw [if_pos ((bit_test x (by omega)).2 hb), BitVec.getLsbD_or, ih (by omega), BitVec.getLsbD_shiftLeft, BitVec.getLsbD_one]
      by_cases hj : j = n - 1 - m
      · subst hj
        have e : n - 1 - (n - 1 - m) = m := by omega
        have h1 : n - 1 - m < 64 := by omega
        simp [e, hb, h1]
        omega
      · have : ¬ (j ≥ n - 1 - m ∧ j - (n - 1 - m) = 0) := by omega
        by_cases h1 : j < n
        · by_cases h2 : n - 1 - j < m
          · simp [h1, h2, show n - 1 - j < m + 1 by omega]
            intro hx
            by_contra hc
            simp_all
          · have h3 : ¬ n - 1 - j < m + 1 := by omega
            simp [h1, h2, h3]
            omega
        · simp [h1]
          omega
    · rw [if_neg (fun h => hb ((bit_test x (by omega)).1 h)), ih (by omega)]
      by_cases hj : n - 1 - j = m
      · simp [hj, hb]
      · by_cases h2 : n - 1 - j < m
        · simp [h2, show n - 1 - j < m + 1 by omega]
        · simp [h2, show ¬ n - 1 - j < m + 1 by omega]

/-- The bits of the mirror image. -/
theorem revN_bit (x : BitVec 64) {n : Nat} (hn : n ≤ 64) (j : Nat) :
    (revN x n).getLsbD j = (decide (j < n) && x.getLsbD (n - 1 - j)) := by
  rw [revN, rev_fold x hn j n le_rfl]
  by_cases h : j < n
  · simp [h, show n - 1 - j < n by omega]
  · simp [h]

theorem mirror_avail (v : BitVec 64) {n : Nat} (hn : n < 64) :
    fullMask n &&& ~~~ revN v n = revN (fullMask n &&& ~~~ v) n := by
  apply BitVec.eq_of_getLsbD_eq
  intro j hj
  rw [BitVec.getLsbD_and, BitVec.getLsbD_not, fullMask_bit hn, revN_bit _ (by omega), revN_bit _ (by omega), BitVec.getLsbD_and,
    BitVec.getLsbD_not, fullMask_bit hn]
  by_cases h : j < n
  · simp [h, hj, show n - 1 - j < n by omega, show n - 1 - j < 64 by omega]
  · simp [h]

theorem mirror_left (v : BitVec 64) {n : Nat} (hn : n < 64) :
    revN (v <<< 1) n &&& fullMask n = (revN v n).sshiftRight 1 &&& fullMask n := by
  apply BitVec.eq_of_getLsbD_eq
  intro j hj
  rw [BitVec.getLsbD_and, BitVec.getLsbD_and, fullMask_bit hn, revN_bit _ (by omega), BitVec.getLsbD_shiftLeft,
    BitVec.getLsbD_sshiftRight]
  by_cases h : j < n
  · simp only [h, decide_true, Bool.true_and, Bool.and_true, show ¬ 64 ≤ j by omega, decide_false, Bool.not_false,
      show 1 + j < 64 by omega, if_true, show n - 1 - j < 64 by omega]
    rw [revN_bit _ (by omega)]
    by_cases h' : 1 + j < n
    · simp [h', show n - 1 - j - 1 = n - 1 - (1 + j) by omega]; omega
    · simp [h']; omega
  · simp [h]

theorem mirror_right (v : BitVec 64) {n : Nat} (hn : n < 64) (hv : v.getLsbD n = false) :
    revN (v.sshiftRight 1) n &&& fullMask n = revN v n <<< 1 &&& fullMask n := by
  apply BitVec.eq_of_getLsbD_eq
  intro j hj
  rw [BitVec.getLsbD_and, BitVec.getLsbD_and, fullMask_bit hn, revN_bit _ (by omega), BitVec.getLsbD_sshiftRight,
    BitVec.getLsbD_shiftLeft]
  by_cases h : j < n
  · simp only [h, decide_true, Bool.true_and, Bool.and_true, show ¬ 64 ≤ n - 1 - j by omega, decide_false, Bool.not_false,
      show 1 + (n - 1 - j) < 64 by omega, if_true, hj]
    rw [revN_bit _ (by omega)]
    rcases Nat.eq_zero_or_pos j with rfl | h'
    · simp [show 1 + (n - 1) = n by omega, hv]
    · simp [show ¬ j < 1 by omega, show j - 1 < n by omega, show 1 + (n - 1 - j) = n - 1 - (j - 1) by omega]
  · simp [h]

/-! ## The places of a set -/

/-- The places of the set bits, from below. -/
def places (x : BitVec 64) : List Nat := (List.range 64).filter x.getLsbD

theorem mem_places {x : BitVec 64} {k : Nat} : k ∈ places x ↔ x.getLsbD k = true := by
  simp only [places, List.mem_filter, List.mem_range, and_iff_right_iff_imp]
  intro h
  exact BitVec.lt_of_getLsbD h

theorem places_nil {x : BitVec 64} : places x = [] ↔ x = 0#64 := by
  constructor
  · intro h
    apply BitVec.eq_of_getLsbD_eq
    intro j _
    have := mem_places (x := x) (k := j)
    rw [h] at this
    simpa using this
  · rintro rfl
    rw [List.eq_nil_iff_forall_not_mem]
    intro k hk
    simp [mem_places] at hk

private theorem places_sorted (x : BitVec 64) : (places x).Pairwise (· < ·) := List.Pairwise.filter _ List.pairwise_lt_range

/-- The lowest bit and the rest of the set. -/
theorem places_cons {x : BitVec 64} {k : Nat} {ks : List Nat} (h : places x = k :: ks) :
    x &&& -x = BitVec.twoPow 64 k ∧ places (x ^^^ BitVec.twoPow 64 k) = ks := by
  have hs := places_sorted x
  rw [h, List.pairwise_cons] at hs
  have hk : x.getLsbD k = true := mem_places.1 (by rw [h]; simp)
  have hk64 : k < 64 := BitVec.lt_of_getLsbD hk
  have hlow : ∀ j, j < k → x.getLsbD j = false := by
    intro j hj
    by_contra hx
    have := mem_places.2 (by simpa using hx : x.getLsbD j = true)
    rw [h, List.mem_cons] at this
    rcases this with rfl | hm
    · omega
    · have := hs.1 j hm; omega
  constructor
  · apply BitVec.eq_of_getLsbD_eq
    intro j hj
    rw [BitVec.getLsbD_and, BitVec.getLsbD_neg, BitVec.getLsbD_twoPow]
    by_cases hjk : k = j
    · subst hjk
      have : ¬ ∃ j, j < k ∧ x.getLsbD j = true := by
        rintro ⟨j, hj, hx⟩
        rw [hlow j hj] at hx
        cases hx
      simp [hk, hk64, this]
    · by_cases hlt : j < k
      · simp [hlow j hlt, hjk]
      · have : ∃ i, i < j ∧ x.getLsbD i = true := ⟨k, by omega, hk⟩
        cases hx : x.getLsbD j <;> simp [hj, this, hjk]
  · have : places (x ^^^ BitVec.twoPow 64 k) = (places x).filter (fun j => decide (j ≠ k)) := by
      simp only [places, List.filter_filter]
      apply List.filter_congr
      intro j hj
      rw [BitVec.getLsbD_xor, BitVec.getLsbD_twoPow]
      by_cases hjk : k = j
      · subst hjk; simp [hk, hk64]
      · have : j ≠ k := fun e => hjk e.symm
        simp [hjk, this]
    rw [this, h, List.filter_cons]
    simp only [ne_eq, not_true_eq_false, decide_false, Bool.false_eq_true, if_false]
    rw [List.filter_eq_self]
    intro j hj
    have := hs.1 j hj
    simp
    omega

/-- The sum over the places of a set. -/
def sumOver (x : BitVec 64) (h : Nat → Int) : Int := ((places x).map h).sum

theorem sumOver_eq {x : BitVec 64} {n : Nat} (hn : n ≤ 64) (hx : ∀ j, n ≤ j → x.getLsbD j = false) (h : Nat → Int) :
    sumOver x h = ∑ k ∈ range n, if x.getLsbD k then h k else 0 := by
  have : ∀ m, ((List.range m).filter x.getLsbD |>.map h).sum = ∑ k ∈ range m, if x.getLsbD k then h k else 0 := by
    intro m
    induction m with
    | zero => simp
    | succ m ih =>
      rw [List.range_succ, List.filter_append, List.map_append, List.sum_append, ih, Finset.sum_range_succ]
      congr 1
      cases hm : x.getLsbD m <;> simp [hm]
  rw [sumOver, places, this]
  symm
  apply Finset.sum_subset
  · intro k; simp only [Finset.mem_range]; omega
  · intro k _ hk
    simp only [Finset.mem_range, not_lt] at hk
    simp [hx k hk]

/-! ## The search -/

/-- The number of ways to place the queens in the last `r` rows of a board of width `n`: the columns taken and the
diagonals taken, as they meet the next row. -/
def count (n : Nat) : Nat → BitVec 64 → BitVec 64 → BitVec 64 → Int
  | 0, _, _, _ => 1
  | r + 1, c, a, b => sumOver (fullMask n &&& ~~~ (c ||| a ||| b)) fun k =>
      count n r (c ||| BitVec.twoPow 64 k) ((a ||| BitVec.twoPow 64 k) <<< 1) ((b ||| BitVec.twoPow 64 k).sshiftRight 1)

private theorem msb_false {b : BitVec 64} {n : Nat} (hn : n < 64) (hb : ∀ j, n ≤ j → b.getLsbD j = false) : b.msb = false := by
  rw [BitVec.msb_eq_getLsbD_last]; exact hb _ (by omega)

/-- The count of the mirror image. -/
theorem count_mirror {n : Nat} (hn : n < 64) : ∀ r (c a b c' a' b' : BitVec 64),
    (∀ j, j < n → c'.getLsbD j = c.getLsbD (n - 1 - j)) → (∀ j, j < n → a'.getLsbD j = b.getLsbD (n - 1 - j)) →
    (∀ j, j < n → b'.getLsbD j = a.getLsbD (n - 1 - j)) →
    (∀ j, n ≤ j → b.getLsbD j = false) → (∀ j, n ≤ j → b'.getLsbD j = false) → count n r c a b = count n r c' a' b' := by
  intro r
  induction r with
  | zero => intros; rfl
  | succ r ih =>
    intro c a b c' a' b' hc ha hb hz hz'
    have hout : ∀ (y : BitVec 64) j, n ≤ j → (fullMask n &&& y).getLsbD j = false := by
      intro y j hj
      rw [BitVec.getLsbD_and, fullMask_bit hn]; simp; omega
    rw [count, count, sumOver_eq (n := n) (by omega) (hout _), sumOver_eq (n := n) (by omega) (hout _)]
    rw [← Finset.sum_range_reflect]
    apply Finset.sum_congr rfl
    intro k hk
    rw [Finset.mem_range] at hk
    have e : n - 1 - (n - 1 - k) = k := by omega
    have hav : (fullMask n &&& ~~~ (c ||| a ||| b)).getLsbD (n - 1 - k) = (fullMask n &&& ~~~ (c' ||| a' ||| b')).getLsbD k := by
      simp only [BitVec.getLsbD_and, fullMask_bit hn, BitVec.getLsbD_not, BitVec.getLsbD_or, hc k hk, ha k hk, hb k hk, hk,
        show n - 1 - k < n by omega, show n - 1 - k < 64 by omega, show k < 64 by omega, decide_true, Bool.true_and]
      cases c.getLsbD (n - 1 - k) <;> cases a.getLsbD (n - 1 - k) <;> cases b.getLsbD (n - 1 - k) <;> rfl
    rw [hav]
    congr 1
    have mz : (b ||| BitVec.twoPow 64 (n - 1 - k)).msb = false := msb_false hn (by
      intro j hj; rw [BitVec.getLsbD_or, hz j hj, BitVec.getLsbD_twoPow]; simp; omega)
    have mz' : (b' ||| BitVec.twoPow 64 k).msb = false := msb_false hn (by
      intro j hj; rw [BitVec.getLsbD_or, hz' j hj, BitVec.getLsbD_twoPow]; simp; omega)
    apply ih
    · intro j hj
      rw [BitVec.getLsbD_or, BitVec.getLsbD_or, hc j hj, BitVec.getLsbD_twoPow, BitVec.getLsbD_twoPow]
      congr 1
      rw [Bool.eq_iff_iff]; simp; omega
    · intro j hj
      rw [BitVec.getLsbD_shiftLeft, BitVec.getLsbD_sshiftRight, mz, BitVec.getLsbD_or, BitVec.getLsbD_or]
      rcases Nat.eq_zero_or_pos j with rfl | h
      · rw [hz (1 + (n - 1 - 0)) (by omega), BitVec.getLsbD_twoPow]
        simp; omega
      · rw [ha (j - 1) (by omega), show n - 1 - (j - 1) = 1 + (n - 1 - j) by omega, BitVec.getLsbD_twoPow, BitVec.getLsbD_twoPow]
        simp only [show j < 64 by omega, show ¬ j < 1 by omega, show ¬ 64 ≤ n - 1 - j by omega, show 1 + (n - 1 - j) < 64 by omega,
          decide_true, decide_false, Bool.not_false, Bool.true_and, if_true]
        congr 1
        rw [Bool.eq_iff_iff]; simp; omega
    · intro j hj
      rw [BitVec.getLsbD_sshiftRight, BitVec.getLsbD_shiftLeft, mz', BitVec.getLsbD_or, BitVec.getLsbD_or]
      simp only [show ¬ 64 ≤ j by omega, show 1 + j < 64 by omega, show n - 1 - j < 64 by omega, decide_true, decide_false,
        Bool.not_false, Bool.true_and, if_true]
      by_cases h : 1 + j < n
      · rw [hb (1 + j) h, show n - 1 - (1 + j) = n - 1 - j - 1 by omega, BitVec.getLsbD_twoPow, BitVec.getLsbD_twoPow]
        simp only [show ¬ n - 1 - j < 1 by omega, decide_false, Bool.not_false, Bool.true_and]
        congr 1
        rw [Bool.eq_iff_iff]; simp; omega
      · have h1 : k ≠ 1 + j := by omega
        have h2 : n - 1 - j < 1 := by omega
        rw [hz' (1 + j) (by omega), BitVec.getLsbD_twoPow]
        simp [h1, h2]
    · intro j hj
      rw [BitVec.getLsbD_sshiftRight, mz, BitVec.getLsbD_or, BitVec.getLsbD_twoPow]
      by_cases h : 1 + j < 64
      · have h1 : n - 1 - k ≠ 1 + j := by omega
        simp only [h, hz (1 + j) (by omega), h1, if_true, decide_false, Bool.and_false, Bool.or_false]
      · simp [h]
    · intro j hj
      rw [BitVec.getLsbD_sshiftRight, mz', BitVec.getLsbD_or, BitVec.getLsbD_twoPow]
      by_cases h : 1 + j < 64
      · have h1 : k ≠ 1 + j := by omega
        simp only [h, hz' (1 + j) (by omega), h1, if_true, decide_false, Bool.and_false, Bool.or_false]
      · simp [h]

/-- Half of a symmetric sum. -/
theorem sum_half (h : Nat → Int) (n : Nat) (hs : ∀ k, k < n → h k = h (n - 1 - k)) :
    (∑ k ∈ range n, h k) = (∑ k ∈ range (n / 2), h k) * 2 + if n % 2 ≠ 0 then h (n / 2) else 0 := by
  have hup : ∀ m, m ≤ n / 2 → ∑ k ∈ Ico (n - m) n, h k = ∑ k ∈ range m, h k := by
    intro m
    induction m with
    | zero => intro _; simp
    | succ m ih =>
      intro hm
      rw [Finset.sum_range_succ, ← ih (by omega), Finset.sum_eq_sum_Ico_succ_bot (by omega), show n - (m + 1) + 1 = n - m by omega,
        hs m (by omega), show n - (m + 1) = n - 1 - m by omega, add_comm]
  have hsplit : ∑ k ∈ range n, h k = (∑ k ∈ range (n / 2), h k) + ∑ k ∈ Ico (n / 2) n, h k := by
    rw [Finset.range_eq_Ico, Finset.range_eq_Ico, Finset.sum_Ico_consecutive _ (by omega) (by omega)]
  rw [hsplit]
  by_cases hn : n % 2 = 0
  · have := hup (n / 2) le_rfl
    rw [show n - n / 2 = n / 2 by omega] at this
    simp [hn, this]; ring
  · have := hup (n / 2) le_rfl
    rw [show n - n / 2 = n / 2 + 1 by omega] at this
    rw [Finset.sum_eq_sum_Ico_succ_bot (by omega), this]
    simp [hn]; ring

end Verif.Lang.Symm
