import Verif.Time.Calendar
import Verif.Time.Spec
/-! # Lemmas on the calendar conversions -/
namespace Verif.Time

theorem gleap_iff (y : Int) : GregorianLeap y ↔ (y % 4 = 0 ∧ y % 100 ≠ 0) ∨ y % 400 = 0 := by
  unfold GregorianLeap; omega

theorem lastDay_eq {y m : Int} (h1 : 1 ≤ m) (h2 : m ≤ 12) :
    lastDayOfMonth y m = monthLength GregorianLeap y m := by
  unfold lastDayOfMonth monthLength
  have hl : (isGregorianLeap y = true) = GregorianLeap y := by rw [leap_iff, gleap_iff]
  have hm : m = 1 ∨ m = 2 ∨ m = 3 ∨ m = 4 ∨ m = 5 ∨ m = 6 ∨ m = 7 ∨ m = 8 ∨ m = 9 ∨ m = 10 ∨ m = 11 ∨ m = 12 := by
    omega
  rcases hm with rfl | rfl | rfl | rfl | rfl | rfl | rfl | rfl | rfl | rfl | rfl | rfl <;> simp [hl]

theorem month_cases {m : Int} (h1 : 1 ≤ m) (h2 : m ≤ 12) :
    m = 1 ∨ m = 2 ∨ m = 3 ∨ m = 4 ∨ m = 5 ∨ m = 6 ∨ m = 7 ∨ m = 8 ∨ m = 9 ∨ m = 10 ∨ m = 11 ∨ m = 12 := by omega

/-- The day number of a date, in the form used below: days before the year, days before the month, day. -/
theorem days_mono_day (y m d : Int) (k : Int) : daysFromCivil y m (d + k) = daysFromCivil y m d + k := by
  simp only [daysFromCivil]; omega

theorem days_next_month {y m : Int} (h1 : 1 ≤ m) (h2 : m < 12) :
    daysFromCivil y (m + 1) 1 = daysFromCivil y m 1 + monthLength GregorianLeap y m := by
  rw [daysFromCivil_eq _ _ _ (by omega) (by omega), daysFromCivil_eq _ _ _ (by omega) (by omega)]
  unfold monthLength
  have h4 : (y - 1) / 4 = y / 4 - (if y % 4 = 0 then 1 else 0) := by split <;> omega
  have h100 : (y - 1) / 100 = y / 100 - (if y % 100 = 0 then 1 else 0) := by split <;> omega
  have h400 : (y - 1) / 400 = y / 400 - (if y % 400 = 0 then 1 else 0) := by split <;> omega
  have hleap := gleap_iff y
  have e : (if GregorianLeap y then (29 : Int) else 28) =
      28 + (if y % 4 = 0 then 1 else 0) - (if y % 100 = 0 then 1 else 0) + (if y % 400 = 0 then 1 else 0) := by
    by_cases g : GregorianLeap y
    · rw [if_pos g]
      rcases hleap.1 g with g | g
      · rw [if_pos g.1, if_neg g.2, if_neg (by omega)]; rfl
      · rw [if_pos (by omega), if_pos (by omega), if_pos g]; rfl
    · rw [if_neg g]
      by_cases g4 : y % 4 = 0
      · by_cases g1 : y % 100 = 0
        · rw [if_pos g4, if_pos g1, if_neg (fun h => g (hleap.2 (Or.inr h)))]; rfl
        · exact absurd (hleap.2 (Or.inl ⟨g4, g1⟩)) g
      · rw [if_neg g4, if_neg (by omega), if_neg (by omega)]; rfl
  rw [e]
  generalize (if y % 4 = 0 then (1 : Int) else 0) = u, (if y % 100 = 0 then (1 : Int) else 0) = v,
    (if y % 400 = 0 then (1 : Int) else 0) = w at *
  rcases month_cases h1 (by omega : m ≤ 12) with
    rfl | rfl | rfl | rfl | rfl | rfl | rfl | rfl | rfl | rfl | rfl | rfl <;> simp at h2 ⊢ <;> omega

theorem days_next_year (y : Int) : daysFromCivil (y + 1) 1 1 = daysFromCivil y 12 1 + 31 := by
  rw [daysFromCivil_eq _ _ _ (by omega) (by omega), daysFromCivil_eq _ _ _ (by omega) (by omega)]
  simp; omega

/-- The day number of a date is the day number of the first of its month plus the day. -/
theorem days_split (y m d : Int) : daysFromCivil y m d = daysFromCivil y m 1 + (d - 1) := by
  have := days_mono_day y m 1 (d - 1)
  rw [← this]; congr 1; omega

theorem monthLength_bounds (leap : Int → Prop) [DecidablePred leap] (y m : Int) :
    28 ≤ monthLength leap y m ∧ monthLength leap y m ≤ 31 := by
  unfold monthLength; split <;> split <;> omega

theorem days_next {d : Int × Int × Int} (h : ValidDate GregorianLeap d) :
    let e := nextDate GregorianLeap d
    daysFromCivil e.1 e.2.1 e.2.2 = daysFromCivil d.1 d.2.1 d.2.2 + 1 := by
  obtain ⟨y, m, d⟩ := d
  obtain ⟨h1, h2, h3, h4⟩ := h
  simp only at h1 h2 h3 h4
  simp only [nextDate]
  by_cases hd : d < monthLength GregorianLeap y m
  · rw [if_pos hd]; simp only; rw [days_split, days_split y m d]; omega
  · rw [if_neg hd]
    by_cases hm : m < 12
    · rw [if_pos hm]; simp only; rw [days_next_month h1 hm, days_split y m d]; omega
    · rw [if_neg hm]; simp only
      obtain rfl : m = 12 := by omega
      have : monthLength GregorianLeap y 12 = 31 := by simp [monthLength]
      rw [days_next_year, days_split y 12 d]; omega

theorem valid_next (leap : Int → Prop) [DecidablePred leap] {d : Int × Int × Int} (h : ValidDate leap d) :
    ValidDate leap (nextDate leap d) := by
  obtain ⟨y, m, d⟩ := d
  obtain ⟨h1, h2, h3, h4⟩ := h
  simp only at h1 h2 h3 h4
  unfold nextDate
  simp only
  have := fun a b => monthLength_bounds leap a b
  split
  · refine ⟨h1, h2, ?_, ?_⟩ <;> simp only <;> omega
  · split
    · refine ⟨?_, ?_, ?_, ?_⟩ <;> simp only
      · omega
      · omega
      · omega
      · have := this y (m + 1); omega
    · refine ⟨?_, ?_, ?_, ?_⟩ <;> simp only
      · omega
      · omega
      · omega
      · have := this (y + 1) 1; omega

/-- Every date is the day after some date. -/
theorem exists_prev (leap : Int → Prop) [DecidablePred leap] {d : Int × Int × Int} (h : ValidDate leap d) :
    ∃ e, ValidDate leap e ∧ nextDate leap e = d := by
  obtain ⟨y, m, d⟩ := d
  obtain ⟨h1, h2, h3, h4⟩ := h
  simp only at h1 h2 h3 h4
  have hb := fun a b => monthLength_bounds leap a b
  by_cases hd : 1 < d
  · refine ⟨(y, m, d - 1), ⟨h1, h2, by simp only; omega, by simp only; omega⟩, ?_⟩
    unfold nextDate; simp only
    rw [if_pos (by omega)]; simp
  · by_cases hm : 1 < m
    · refine ⟨(y, m - 1, monthLength leap y (m - 1)), ⟨by simp only; omega, by simp only; omega, ?_, ?_⟩, ?_⟩
      · have := hb y (m - 1); simp only; omega
      · simp
      · unfold nextDate; simp only
        rw [if_neg (by omega), if_pos (by omega)]
        simp; omega
    · refine ⟨(y - 1, 12, 31), ⟨by simp, by simp, by simp, by simp [monthLength]⟩, ?_⟩
      unfold nextDate; simp only
      rw [if_neg (by simp [monthLength]), if_neg (by omega)]
      simp; omega

theorem days_surj (z : Int) : ∃ d, ValidDate GregorianLeap d ∧ daysFromCivil d.1 d.2.1 d.2.2 = z := by
  induction z using Int.induction_on with
  | zero => exact ⟨(1970, 1, 1), by unfold ValidDate monthLength; simp, by decide⟩
  | succ n ih =>
    obtain ⟨d, hv, hd⟩ := ih
    exact ⟨nextDate GregorianLeap d, valid_next _ hv, by rw [days_next hv, hd]⟩
  | pred n ih =>
    obtain ⟨d, hv, hd⟩ := ih
    obtain ⟨e, he, hn⟩ := exists_prev _ hv
    refine ⟨e, he, ?_⟩
    have := days_next he
    rw [hn] at this
    omega

theorem mp_eq {mp doy d : Int} (h0 : 0 ≤ mp) (h1 : mp ≤ 11) (h2 : 0 ≤ d) (h3 : d ≤ 30)
    (h4 : d = 30 → mp = 0 ∨ mp = 2 ∨ mp = 4 ∨ mp = 5 ∨ mp = 7 ∨ mp = 9 ∨ mp = 10)
    (h : doy = (153 * mp + 2) / 5 + d) : (5 * doy + 2) / 153 = mp := by
  have : mp = 0 ∨ mp = 1 ∨ mp = 2 ∨ mp = 3 ∨ mp = 4 ∨ mp = 5 ∨ mp = 6 ∨ mp = 7 ∨ mp = 8 ∨ mp = 9 ∨ mp = 10 ∨ mp = 11 := by
    omega
  rcases this with rfl | rfl | rfl | rfl | rfl | rfl | rfl | rfl | rfl | rfl | rfl | rfl <;> simp at h4 <;> omega

theorem doy_bounds {y m d y' mp doy : Int} (h1 : 1 ≤ m) (h2 : m ≤ 12) (h3 : 1 ≤ d)
    (h4 : d ≤ monthLength GregorianLeap y m) (hy' : y' = if m ≤ 2 then y - 1 else y)
    (hmp : mp = if m > 2 then m - 3 else m + 9) (hdoy : doy = (153 * mp + 2) / 5 + (d - 1)) :
    (0 ≤ doy ∧ doy ≤ 365 ∧ (5 * doy + 2) / 153 = mp) ∧ (doy = 365 → GregorianLeap (y' + 1)) := by
  have hb := monthLength_bounds GregorianLeap y m
  have hmp0 : 0 ≤ mp ∧ mp ≤ 11 := by split at hmp <;> omega
  have h30 : d - 1 = 30 → mp = 0 ∨ mp = 2 ∨ mp = 4 ∨ mp = 5 ∨ mp = 7 ∨ mp = 9 ∨ mp = 10 := by
    intro hd
    have h31 : monthLength GregorianLeap y m = 31 := by omega
    unfold monthLength at h31
    rcases month_cases h1 h2 with rfl | rfl | rfl | rfl | rfl | rfl | rfl | rfl | rfl | rfl | rfl | rfl <;>
      simp at h31 hmp <;> first | omega | (split at h31 <;> omega)
  have hmpeq := mp_eq hmp0.1 hmp0.2 (by omega : 0 ≤ d - 1) (by omega) h30 hdoy
  have hfeb : mp = 11 → d - 1 ≤ 28 ∧ (d - 1 = 28 → GregorianLeap (y' + 1)) := by
    intro h
    have hm : m = 2 := by split at hmp <;> omega
    subst hm
    simp only [le_refl, if_true] at hy'
    simp only [monthLength, if_true] at h4
    have : y' + 1 = y := by omega
    rw [this]
    split at h4 <;> constructor <;> first | omega | (intro; assumption) | (intro; omega)
  have hdoy1 : doy ≤ 365 := by
    by_cases h : mp = 11
    · have := (hfeb h).1; subst h; omega
    · omega
  refine ⟨⟨by omega, hdoy1, hmpeq⟩, fun h => ?_⟩
  have h11 : mp = 11 := by
    by_contra hne
    omega
  exact (hfeb h11).2 (by subst h11; omega)

theorem era_split (y' : Int) : y' / 4 = 100 * (y' / 400) + y' % 400 / 4 ∧ y' / 100 = 4 * (y' / 400) + y' % 400 / 100 := by
  omega

theorem civil_of_parts {era yoe doy mp d : Int} (hy0 : 0 ≤ yoe) (hy1 : yoe < 400)
    (hl : doy = 365 → (yoe % 4 = 3 ∧ yoe % 100 ≠ 99) ∨ yoe = 399)
    (hdoy : doy = (153 * mp + 2) / 5 + (d - 1)) (hmp0 : 0 ≤ mp)
    (hd0 : 0 ≤ doy) (hd1 : doy ≤ 365) (hmp : (5 * doy + 2) / 153 = mp) :
    civilFromDays (era * 146097 + (yoe * 365 + yoe / 4 - yoe / 100 + doy) - 719468)
      = ((if (if mp < 10 then mp + 3 else mp - 9) ≤ 2 then yoe + era * 400 + 1 else yoe + era * 400),
          (if mp < 10 then mp + 3 else mp - 9), d) := by
  have hy := yoe_eq yoe doy hy0 hy1 hd0 hd1 hl
  simp only at hy
  obtain ⟨doe, hdoe⟩ : ∃ doe, doe = yoe * 365 + yoe / 4 - yoe / 100 + doy := ⟨_, rfl⟩
  rw [← hdoe] at hy ⊢
  have hr : 0 ≤ doe ∧ doe < 146097 := by omega
  have hera : (era * 146097 + doe) / 146097 = era := by omega
  unfold civilFromDays
  rw [show era * 146097 + doe - 719468 + 719468 = era * 146097 + doe by omega]
  simp only [era_floor', hera]
  rw [show era * 146097 + doe - era * 146097 = doe by omega]
  rw [tdiv_nonneg hr.1, tdiv_nonneg hr.1, tdiv_nonneg hr.1, tdiv_nonneg (a := doe - doe / 1460 + doe / 36524 - doe / 146096) (by omega), hy]
  rw [tdiv_nonneg (a := yoe) (by omega), tdiv_nonneg (a := yoe) (by omega)]
  rw [show doe - (365 * yoe + yoe / 4 - yoe / 100) = doy by omega]
  rw [tdiv_nonneg (a := 5 * doy + 2) (by omega), hmp, tdiv_nonneg (a := 153 * mp + 2) (by omega)]
  simp only [Prod.mk.injEq, true_and]
  omega

theorem civil_days {d : Int × Int × Int} (hv : ValidDate GregorianLeap d) :
    civilFromDays (daysFromCivil d.1 d.2.1 d.2.2) = d := by
  obtain ⟨y, m, d⟩ := d
  obtain ⟨h1, h2, h3, h4⟩ := hv
  simp only at h1 h2 h3 h4
  rw [daysFromCivil_eq _ _ _ h1 h2]
  simp only
  obtain ⟨y', hy'⟩ : ∃ y', y' = if m ≤ 2 then y - 1 else y := ⟨_, rfl⟩
  obtain ⟨mp, hmp⟩ : ∃ mp, mp = if m > 2 then m - 3 else m + 9 := ⟨_, rfl⟩
  rw [← hy', ← hmp]
  obtain ⟨doy, hdoy⟩ : ∃ doy, doy = (153 * mp + 2) / 5 + (d - 1) := ⟨_, rfl⟩
  obtain ⟨⟨b1, b2, b3⟩, b4⟩ := doy_bounds h1 h2 h3 h4 hy' hmp hdoy
  have hl : doy = 365 → (y' % 400 % 4 = 3 ∧ y' % 400 % 100 ≠ 99) ∨ y' % 400 = 399 := by
    intro h
    have := (gleap_iff _).1 (b4 h)
    omega
  have he := era_split y'
  have hz : 365 * y' + y' / 4 - y' / 100 + y' / 400 + (153 * mp + 2) / 5 + d - 1 - 719468
      = y' / 400 * 146097 + (y' % 400 * 365 + y' % 400 / 4 - y' % 400 / 100 + doy) - 719468 := by
    rw [he.1, he.2]; omega
  rw [hz, civil_of_parts (by omega) (by omega) hl hdoy (by split at hmp <;> omega) b1 b2 b3]
  simp only [Prod.mk.injEq, and_true]
  clear hz hl b4 b3 hdoy h4 he
  have hyy : y' % 400 + y' / 400 * 400 = y' := by omega
  rw [hyy]
  split at hmp <;> (constructor <;> (repeat' split) <;> split at hy' <;> omega)

theorem civil_spec (z : Int) :
    ValidDate GregorianLeap (civilFromDays z) ∧
      daysFromCivil (civilFromDays z).1 (civilFromDays z).2.1 (civilFromDays z).2.2 = z := by
  obtain ⟨d, hv, rfl⟩ := days_surj z
  rw [civil_days hv]; exact ⟨hv, rfl⟩

end Verif.Time
