import Verif.Time.CalendarLemmas
/-! # Order of dates, Julian dates, ISO weeks -/
namespace Verif.Time

/-- The day number of the first of the month with index `t` (months counted from January of year 0). -/
def monthStart (t : Int) : Int := daysFromCivil (t / 12) (t % 12 + 1) 1

theorem monthStart_of (y m : Int) (h1 : 1 ≤ m) (h2 : m ≤ 12) : monthStart (12 * y + (m - 1)) = daysFromCivil y m 1 := by
  unfold monthStart
  rw [show (12 * y + (m - 1)) / 12 = y by omega, show (12 * y + (m - 1)) % 12 + 1 = m by omega]

theorem monthStart_succ (t : Int) :
    monthStart (t + 1) = monthStart t + monthLength GregorianLeap (t / 12) (t % 12 + 1) := by
  by_cases h : t % 12 = 11
  · unfold monthStart
    rw [show (t + 1) / 12 = t / 12 + 1 by omega, show (t + 1) % 12 + 1 = 1 by omega, h, days_next_year]
    simp [monthLength]
  · unfold monthStart
    rw [show (t + 1) / 12 = t / 12 by omega, show (t + 1) % 12 + 1 = t % 12 + 1 + 1 by omega,
      days_next_month (by omega) (by omega)]

theorem monthStart_step (t : Int) : monthStart t + 28 ≤ monthStart (t + 1) := by
  have := monthStart_succ t
  have := monthLength_bounds GregorianLeap (t / 12) (t % 12 + 1)
  omega

theorem monthStart_mono {s t : Int} (h : s ≤ t) : monthStart s + 28 * (t - s) ≤ monthStart t := by
  obtain ⟨k, rfl⟩ : ∃ k : Nat, t = s + k := ⟨(t - s).toNat, by omega⟩
  clear h
  induction k with
  | zero => simp
  | succ k ih =>
    have := monthStart_step (s + k)
    rw [show s + ((k + 1 : Nat) : Int) = s + k + 1 by push_cast; omega]
    omega

/-- A date lies in its month. -/
theorem days_in_month {y m d : Int} (hv : ValidDate GregorianLeap (y, m, d)) :
    monthStart (12 * y + (m - 1)) ≤ daysFromCivil y m d ∧
      daysFromCivil y m d < monthStart (12 * y + (m - 1) + 1) := by
  obtain ⟨h1, h2, h3, h4⟩ := hv
  simp only at h1 h2 h3 h4
  rw [monthStart_succ, monthStart_of y m h1 h2, show (12 * y + (m - 1)) / 12 = y by omega,
    show (12 * y + (m - 1)) % 12 + 1 = m by omega, days_split y m d]
  omega

theorem days_lt {a b : Int × Int × Int} (ha : ValidDate GregorianLeap a) (hb : ValidDate GregorianLeap b)
    (h : DateLt a b) : daysFromCivil a.1 a.2.1 a.2.2 < daysFromCivil b.1 b.2.1 b.2.2 := by
  obtain ⟨y, m, d⟩ := a
  obtain ⟨y', m', d'⟩ := b
  have h1 := days_in_month ha
  have h2 := days_in_month hb
  obtain ⟨a1, a2, a3, a4⟩ := ha
  obtain ⟨b1, b2, b3, b4⟩ := hb
  simp only at a1 a2 a3 a4 b1 b2 b3 b4
  simp only [DateLt] at h ⊢
  by_cases ht : 12 * y + (m - 1) < 12 * y' + (m' - 1)
  · have := monthStart_mono (show 12 * y + (m - 1) + 1 ≤ 12 * y' + (m' - 1) by omega)
    omega
  · obtain ⟨rfl, rfl, hd⟩ : y = y' ∧ m = m' ∧ d < d' := by omega
    rw [days_split, days_split y m d']; omega

theorem dateLt_trichotomy (a b : Int × Int × Int) : DateLt a b ∨ a = b ∨ DateLt b a := by
  obtain ⟨y, m, d⟩ := a
  obtain ⟨y', m', d'⟩ := b
  simp only [DateLt, Prod.mk.injEq]; omega

theorem days_lt_iff {a b : Int × Int × Int} (ha : ValidDate GregorianLeap a) (hb : ValidDate GregorianLeap b) :
    daysFromCivil a.1 a.2.1 a.2.2 < daysFromCivil b.1 b.2.1 b.2.2 ↔ DateLt a b := by
  constructor
  · intro h
    rcases dateLt_trichotomy a b with h' | h' | h'
    · exact h'
    · subst h'; omega
    · have := days_lt hb ha h'; omega
  · exact days_lt ha hb

/-! ## Julian -/

/-- First of March of the year -4800 (the origin of the Julian conversions) or later. -/
def FromMarch4800 (d : Int × Int × Int) : Prop := -4800 < d.1 ∨ (d.1 = -4800 ∧ 3 ≤ d.2.1)

theorem jdn_eq {y m d : Int} (h1 : 1 ≤ m) (h2 : m ≤ 12) (hs : FromMarch4800 (y, m, d)) :
    jdnFromJulian y m d =
      let y' := if m ≤ 2 then y + 4799 else y + 4800
      let mp := if m > 2 then m - 3 else m + 9
      d + (153 * mp + 2) / 5 + 365 * y' + y' / 4 - 32083 := by
  simp only [FromMarch4800] at hs
  rcases month_cases h1 h2 with rfl | rfl | rfl | rfl | rfl | rfl | rfl | rfl | rfl | rfl | rfl | rfl <;>
    simp [jdnFromJulian] <;> rw [tdiv_nonneg (by omega)] <;> omega

theorem julian_next {d : Int × Int × Int} (hv : ValidDate JulianLeap d) (hs : FromMarch4800 d) :
    let e := nextDate JulianLeap d
    jdnFromJulian e.1 e.2.1 e.2.2 = jdnFromJulian d.1 d.2.1 d.2.2 + 1 ∧ FromMarch4800 e := by
  obtain ⟨y, m, d⟩ := d
  have hs' := hs
  obtain ⟨h1, h2, h3, h4⟩ := hv
  simp only at h1 h2 h3 h4
  simp only [FromMarch4800] at hs'
  simp only [nextDate]
  have hdy : (y - 1) / 4 = y / 4 - (if 4 ∣ y then 1 else 0) := by split <;> omega
  by_cases hd : d < monthLength JulianLeap y m
  · rw [if_pos hd]; simp only
    have hs2 : FromMarch4800 (y, m, d + 1) := by simp only [FromMarch4800]; omega
    rw [jdn_eq h1 h2 hs2, jdn_eq h1 h2 hs]
    refine ⟨by simp only; omega, hs2⟩
  · rw [if_neg hd]
    have hd' : d = monthLength JulianLeap y m := by omega
    by_cases hm : m < 12
    · rw [if_pos hm]; simp only
      have hs2 : FromMarch4800 (y, m + 1, 1) := by simp only [FromMarch4800]; omega
      rw [jdn_eq (by omega) (by omega) hs2, jdn_eq h1 h2 hs]
      refine ⟨?_, hs2⟩
      rw [hd']
      by_cases hl : 4 ∣ y
      · rcases month_cases h1 h2 with rfl | rfl | rfl | rfl | rfl | rfl | rfl | rfl | rfl | rfl | rfl | rfl <;>
          simp [monthLength, JulianLeap, hl] at hm ⊢ <;> omega
      · rcases month_cases h1 h2 with rfl | rfl | rfl | rfl | rfl | rfl | rfl | rfl | rfl | rfl | rfl | rfl <;>
          simp [monthLength, JulianLeap, hl] at hm ⊢ <;> omega
    · rw [if_neg hm]; simp only
      obtain rfl : m = 12 := by omega
      have hs2 : FromMarch4800 (y + 1, 1, 1) := by simp only [FromMarch4800]; omega
      rw [jdn_eq (by omega) (by omega) hs2, jdn_eq h1 h2 hs]
      refine ⟨?_, hs2⟩
      rw [hd']; simp [monthLength]; omega

theorem julian_jdn {d : Int × Int × Int} (hv : ValidDate JulianLeap d) (hs : FromMarch4800 d) :
    julianFromJdn (jdnFromJulian d.1 d.2.1 d.2.2) = d := by
  obtain ⟨y, m, d⟩ := d
  have hs' := hs
  obtain ⟨h1, h2, h3, h4⟩ := hv
  simp only at h1 h2 h3 h4
  simp only [FromMarch4800] at hs'
  rw [jdn_eq h1 h2 hs]
  simp only
  obtain ⟨y', hy'⟩ : ∃ y', y' = if m ≤ 2 then y + 4799 else y + 4800 := ⟨_, rfl⟩
  obtain ⟨mp, hmp⟩ : ∃ mp, mp = if m > 2 then m - 3 else m + 9 := ⟨_, rfl⟩
  rw [← hy', ← hmp]
  obtain ⟨doy, hdoy⟩ : ∃ doy, doy = (153 * mp + 2) / 5 + (d - 1) := ⟨_, rfl⟩
  have hb := monthLength_bounds JulianLeap y m
  have hmp0 : 0 ≤ mp ∧ mp ≤ 11 := by split at hmp <;> omega
  have h30 : d - 1 = 30 → mp = 0 ∨ mp = 2 ∨ mp = 4 ∨ mp = 5 ∨ mp = 7 ∨ mp = 9 ∨ mp = 10 := by
    intro hd
    have h31 : monthLength JulianLeap y m = 31 := by omega
    unfold monthLength at h31
    rcases month_cases h1 h2 with rfl | rfl | rfl | rfl | rfl | rfl | rfl | rfl | rfl | rfl | rfl | rfl <;>
      simp at h31 hmp <;> first | omega | (split at h31 <;> omega)
  have hmpeq := mp_eq hmp0.1 hmp0.2 (by omega : 0 ≤ d - 1) (by omega) h30 hdoy
  have hfeb : mp = 11 → d - 1 ≤ 28 ∧ (d - 1 = 28 → 4 ∣ y' + 1) := by
    intro h
    have hm : m = 2 := by split at hmp <;> omega
    subst hm
    simp only [le_refl, if_true] at hy'
    simp only [monthLength, if_true] at h4
    by_cases hl : JulianLeap y
    · rw [if_pos hl] at h4; unfold JulianLeap at hl; omega
    · rw [if_neg hl] at h4; omega
  have hdoy1 : doy ≤ 365 ∧ (doy = 365 → 4 ∣ y' + 1) := by
    by_cases h : mp = 11
    · have := hfeb h; subst h; omega
    · omega
  have hy0 : 0 ≤ y' := by split at hy' <;> omega
  have hc : d + (153 * mp + 2) / 5 + 365 * y' + y' / 4 - 32083 + 32082 = 365 * y' + y' / 4 + doy := by omega
  unfold julianFromJdn
  simp only [hc]
  have hyy : (4 * (365 * y' + y' / 4 + doy) + 3) / 1461 = y' := by omega
  rw [tdiv_nonneg (a := 4 * (365 * y' + y' / 4 + doy) + 3) (by omega), hyy, tdiv_nonneg (a := 1461 * y') (by omega)]
  rw [show 365 * y' + y' / 4 + doy - 1461 * y' / 4 = doy by omega]
  rw [tdiv_nonneg (a := 5 * doy + 2) (by omega), hmpeq, tdiv_nonneg (a := 153 * mp + 2) (by omega),
    tdiv_nonneg (a := mp) (by omega)]
  simp only [Prod.mk.injEq]
  clear hc hyy hdoy1 hfeb hmpeq h30 hb h4
  split at hmp <;> split at hy' <;> omega

theorem julian_surj (z : Int) (hz : -32082 ≤ z) :
    ∃ d, ValidDate JulianLeap d ∧ FromMarch4800 d ∧ jdnFromJulian d.1 d.2.1 d.2.2 = z := by
  obtain ⟨k, rfl⟩ : ∃ k : Nat, z = -32082 + k := ⟨(z + 32082).toNat, by omega⟩
  clear hz
  induction k with
  | zero => exact ⟨(-4800, 3, 1), by unfold ValidDate monthLength; simp, by simp [FromMarch4800], by decide⟩
  | succ k ih =>
    obtain ⟨d, hv, hs, hd⟩ := ih
    have := julian_next hv hs
    refine ⟨nextDate JulianLeap d, valid_next _ hv, this.2, ?_⟩
    rw [this.1, hd]; push_cast; omega

/-! ## ISO weeks -/

/-- 1 January of a year. -/
theorem jan4_eq (y : Int) : daysFromCivil y 1 4 = daysFromCivil y 1 1 + 3 := by rw [days_split]; omega

theorem civil_year_bounds (z : Int) :
    daysFromCivil (civilFromDays z).1 1 1 ≤ z ∧ z < daysFromCivil ((civilFromDays z).1 + 1) 1 1 := by
  obtain ⟨hv, hd⟩ := civil_spec z
  generalize civilFromDays z = w at *
  obtain ⟨y, m, d⟩ := w
  have hb := days_in_month hv
  obtain ⟨h1, h2, h3, h4⟩ := hv
  simp only at h1 h2 h3 h4 hd ⊢
  have e1 := monthStart_of y 1 (by omega) (by omega)
  have e2 := monthStart_of (y + 1) 1 (by omega) (by omega)
  have := monthStart_mono (show 12 * y + (1 - 1) ≤ 12 * y + (m - 1) by omega)
  have := monthStart_mono (show 12 * y + (m - 1) + 1 ≤ 12 * (y + 1) + (1 - 1) by omega)
  omega

theorem year_length (y : Int) :
    daysFromCivil y 1 1 + 365 ≤ daysFromCivil (y + 1) 1 1 ∧ daysFromCivil (y + 1) 1 1 ≤ daysFromCivil y 1 1 + 366 := by
  rw [daysFromCivil_eq _ _ _ (by omega) (by omega), daysFromCivil_eq _ _ _ (by omega) (by omega)]
  simp; omega

theorem jan1_mono {y y' : Int} (h : y < y') : daysFromCivil (y + 1) 1 1 ≤ daysFromCivil y' 1 1 := by
  rw [← monthStart_of _ _ (by omega) (by omega), ← monthStart_of _ _ (by omega) (by omega)]
  have := monthStart_mono (show 12 * (y + 1) + (1 - 1) ≤ 12 * y' + (1 - 1) by omega)
  omega

theorem civil_year_unique {y z : Int} (h1 : daysFromCivil y 1 1 ≤ z) (h2 : z < daysFromCivil (y + 1) 1 1) :
    (civilFromDays z).1 = y := by
  have hb := civil_year_bounds z
  rcases Int.lt_trichotomy (civilFromDays z).1 y with h | h | h
  · have := jan1_mono h; omega
  · exact h
  · have := jan1_mono h; omega

end Verif.Time
