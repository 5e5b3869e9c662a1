import Verif.Time.CalendarMore
import Verif.Time.InstantLemmas
/-! # C55–C58: calendars, ISO weeks, civil time

The calendars themselves (leap rule, month lengths, successor of a date, order of dates) are in `Time/Spec`. -/
namespace Verif.Props
open Verif.Time

/-! ## C55: the Gregorian calendar -/

/-- 1 January 1970 is day 0. -/
theorem C55_epoch : daysFromCivil 1970 1 1 = 0 := by decide

/-- The day after has the next number, for every date of every year. -/
theorem C55_consecutive (d : Int × Int × Int) (hv : ValidDate GregorianLeap d) :
    daysFromCivil (nextDate GregorianLeap d).1 (nextDate GregorianLeap d).2.1 (nextDate GregorianLeap d).2.2 =
      daysFromCivil d.1 d.2.1 d.2.2 + 1 := days_next hv

example : ValidDate GregorianLeap (2000, 2, 29) ∧ nextDate GregorianLeap (2000, 2, 29) = (2000, 3, 1) ∧
    ¬ ValidDate GregorianLeap (1900, 2, 29) := by unfold ValidDate; decide

/-- Day number and date are mutually inverse, and the date of a number is valid. -/
theorem C55_inverse :
    (∀ d : Int × Int × Int, ValidDate GregorianLeap d → civilFromDays (daysFromCivil d.1 d.2.1 d.2.2) = d) ∧
      ∀ z : Int, ValidDate GregorianLeap (civilFromDays z) ∧
        daysFromCivil (civilFromDays z).1 (civilFromDays z).2.1 (civilFromDays z).2.2 = z :=
  ⟨fun _ hv => civil_days hv, civil_spec⟩

/-- Day numbers are ordered as dates are. -/
theorem C55_order (a b : Int × Int × Int) (ha : ValidDate GregorianLeap a) (hb : ValidDate GregorianLeap b) :
    daysFromCivil a.1 a.2.1 a.2.2 < daysFromCivil b.1 b.2.1 b.2.2 ↔ DateLt a b := days_lt_iff ha hb

/-- The last day of a month is its length, and the day of the year counts from 1 January. -/
theorem C55_lengths (y m : Int) (h1 : 1 ≤ m) (h2 : m ≤ 12) :
    lastDayOfMonth y m = monthLength GregorianLeap y m ∧ dayOfYear y 1 1 = 1 ∧
      ∀ d, ValidDate GregorianLeap (y, m, d) → 1 ≤ dayOfYear y m d ∧ dayOfYear y m d ≤ 366 := by
  refine ⟨lastDay_eq h1 h2, by unfold dayOfYear; omega, fun d hv => ?_⟩
  have hb := civil_year_bounds (daysFromCivil y m d)
  have hc := civil_days hv
  simp only at hc
  rw [hc] at hb
  have hl := year_length y
  simp only at hb
  unfold dayOfYear; omega

/-- The two leap-year tests. -/
theorem C55_leap (y : Int) : (isGregorianLeap y = true ↔ GregorianLeap y) ∧ (isJulianLeap y = true ↔ JulianLeap y) := by
  refine ⟨(leap_iff y).trans (gleap_iff y).symm, ?_⟩
  simp only [isJulianLeap, JulianLeap, decide_eq_true_eq]; omega

/-- Weekdays go round: Sunday is 0, day 0 was a Thursday, and the next day has the next weekday. -/
theorem C55_weekday (z : Int) :
    (0 ≤ weekdayFromDays z ∧ weekdayFromDays z ≤ 6) ∧ weekdayFromDays 0 = 4 ∧
      weekdayFromDays (z + 1) = (weekdayFromDays z + 1) % 7 ∧
      isoWeekdayFromDays z = (if weekdayFromDays z = 0 then 7 else weekdayFromDays z) := by
  unfold weekdayFromDays isoWeekdayFromDays
  refine ⟨by omega, by decide, by omega, ?_⟩
  split <;> omega

/-! ## C56: the Julian calendar -/

/-- From 1 March of the year -4800 on: consecutive dates have consecutive day numbers, the conversions are mutually
inverse, and every later day number is reached; 4 October 1582 (Julian) is the day before 15 October 1582
(Gregorian).  Missing: earlier dates, where the property fails (see below). -/
theorem C56_julian_partial :
    (∀ d : Int × Int × Int, ValidDate JulianLeap d → FromMarch4800 d →
      julianFromDays (daysFromJulian d.1 d.2.1 d.2.2) = d ∧
      daysFromJulian (nextDate JulianLeap d).1 (nextDate JulianLeap d).2.1 (nextDate JulianLeap d).2.2 =
        daysFromJulian d.1 d.2.1 d.2.2 + 1) ∧
    (∀ z : Int, daysFromJulian (-4800) 3 1 ≤ z → ValidDate JulianLeap (julianFromDays z) ∧
      FromMarch4800 (julianFromDays z) ∧
      daysFromJulian (julianFromDays z).1 (julianFromDays z).2.1 (julianFromDays z).2.2 = z) ∧
    daysFromJulian 1582 10 4 + 1 = daysFromCivil 1582 10 15 := by
  refine ⟨fun d hv hs => ⟨?_, ?_⟩, fun z hz => ?_, by decide⟩
  · unfold julianFromDays daysFromJulian
    rw [show jdnFromJulian d.1 d.2.1 d.2.2 - unixEpochJdn + unixEpochJdn = jdnFromJulian d.1 d.2.1 d.2.2 by omega]
    exact julian_jdn hv hs
  · unfold daysFromJulian; rw [(julian_next hv hs).1]; omega
  · have h0 : daysFromJulian (-4800) 3 1 = -2472670 := by decide
    rw [h0] at hz
    obtain ⟨d, hv, hs, hd⟩ := julian_surj (z + 2440588) (by omega)
    have : julianFromDays z = d := by unfold julianFromDays; rw [show z + unixEpochJdn = z + 2440588 by rfl, ← hd]; exact julian_jdn hv hs
    rw [this]
    refine ⟨hv, hs, ?_⟩
    unfold daysFromJulian; rw [hd]; simp only [unixEpochJdn]; omega

example : ValidDate JulianLeap (1900, 2, 29) ∧ FromMarch4800 (1900, 2, 29) := by
  unfold ValidDate FromMarch4800; decide

/-- Before that date the code breaks: two dates get one number, and a date comes back as a day that does not exist. -/
theorem C56_julian_before_4800_fails :
    (ValidDate JulianLeap (-4800, 2, 29) ∧ ValidDate JulianLeap (-4800, 3, 1) ∧
      daysFromJulian (-4800) 2 29 = daysFromJulian (-4800) 3 1) ∧
    ValidDate JulianLeap (-4800, 2, 28) ∧ julianFromDays (daysFromJulian (-4800) 2 28) = (-4800, 3, 0) := by
  unfold ValidDate; decide

/-! ## C57: ISO weeks -/

/-- The Thursday of the week (Monday to Sunday) containing day `z`. -/
def ThursdayOf (z t : Int) : Prop := weekdayFromDays t = 4 ∧ ∃ monday, monday ≤ z ∧ z < monday + 7 ∧ t = monday + 3

/-- The ISO year is the year of the week's Thursday, the week number says which Thursday of that year it is, and
the weekday is Monday = 1 to Sunday = 7. -/
theorem C57_thursday_rule (z t : Int) (ht : ThursdayOf z t) :
    (isoWeekFromDays z).1 = (civilFromDays t).1 ∧
      (daysFromCivil (civilFromDays t).1 1 1 + 7 * ((isoWeekFromDays z).2.1 - 1) ≤ t ∧
        t < daysFromCivil (civilFromDays t).1 1 1 + 7 * (isoWeekFromDays z).2.1) ∧
      (isoWeekFromDays z).2.2 = z - t + 4 := by
  obtain ⟨h4, monday, h1, h2, h3⟩ := ht
  unfold weekdayFromDays at h4
  have htz : t = z + (4 - isoWeekdayFromDays z) := by unfold isoWeekdayFromDays; omega
  have hb := civil_year_bounds t
  simp only [isoWeekFromDays]
  rw [← htz, jan4_eq]
  generalize daysFromCivil (civilFromDays t).1 1 1 = j at *
  have hmon : (j + 3 - (isoWeekdayFromDays (j + 3) - 1)) % 7 = 4 ∧
      j - 3 ≤ j + 3 - (isoWeekdayFromDays (j + 3) - 1) ∧ j + 3 - (isoWeekdayFromDays (j + 3) - 1) ≤ j + 3 := by
    unfold isoWeekdayFromDays; omega
  generalize j + 3 - (isoWeekdayFromDays (j + 3) - 1) = w1 at *
  have hz0 : 0 ≤ z - w1 := by omega
  rw [tdiv_nonneg hz0]
  refine ⟨rfl, ⟨by omega, by omega⟩, by omega⟩

example : ThursdayOf (daysFromCivil 2027 1 1) (daysFromCivil 2026 12 31) := by
  refine ⟨by decide, daysFromCivil 2026 12 28, by decide, by decide, by decide⟩

/-- Every day has a Thursday, weeks run from 1 to 53, weekdays from 1 to 7, and `days_from_iso_week` undoes
`iso_week_from_days`. -/
theorem C57_inverse (z : Int) :
    (∃ t, ThursdayOf z t) ∧ (1 ≤ (isoWeekFromDays z).2.1 ∧ (isoWeekFromDays z).2.1 ≤ 53) ∧
      (1 ≤ (isoWeekFromDays z).2.2 ∧ (isoWeekFromDays z).2.2 ≤ 7) ∧
      daysFromIsoWeek (isoWeekFromDays z).1 (isoWeekFromDays z).2.1 (isoWeekFromDays z).2.2 = z := by
  have hT : ThursdayOf z (z + (4 - isoWeekdayFromDays z)) := by
    refine ⟨?_, z + (4 - isoWeekdayFromDays z) - 3, ?_, ?_, by omega⟩ <;>
      simp only [isoWeekdayFromDays, weekdayFromDays] <;> omega
  obtain ⟨h1, h2, h3⟩ := C57_thursday_rule z _ hT
  have hb := civil_year_bounds (z + (4 - isoWeekdayFromDays z))
  have hl := year_length (civilFromDays (z + (4 - isoWeekdayFromDays z))).1
  refine ⟨⟨_, hT⟩, ⟨by omega, by omega⟩, ?_, ?_⟩
  · rw [h3]; unfold isoWeekdayFromDays; omega
  · rw [h1, h3]
    have hTw := hT.1
    simp only [daysFromIsoWeek]
    rw [jan4_eq]
    generalize z + (4 - isoWeekdayFromDays z) = t at *
    generalize daysFromCivil (civilFromDays t).1 1 1 = j at *
    unfold weekdayFromDays at hTw
    have hmon : (j + 3 - (isoWeekdayFromDays (j + 3) - 1)) % 7 = 4 ∧
        j - 3 ≤ j + 3 - (isoWeekdayFromDays (j + 3) - 1) ∧ j + 3 - (isoWeekdayFromDays (j + 3) - 1) ≤ j + 3 := by
      unfold isoWeekdayFromDays; omega
    generalize j + 3 - (isoWeekdayFromDays (j + 3) - 1) = w1 at *
    generalize (isoWeekFromDays z).2.1 = w at *
    omega

/-- Conversely a year, week and weekday whose Thursday lies in the year come back. -/
theorem C57_inverse' (y w d : Int) (hw : 1 ≤ w) (hd : 1 ≤ d) (hd' : d ≤ 7)
    (hy : daysFromIsoWeek y w 4 < daysFromCivil (y + 1) 1 1) :
    isoWeekFromDays (daysFromIsoWeek y w d) = (y, w, d) := by
  have hj : (daysFromCivil y 1 1 + 3 - (isoWeekdayFromDays (daysFromCivil y 1 1 + 3) - 1)) % 7 = 4 ∧
      daysFromCivil y 1 1 - 3 ≤ daysFromCivil y 1 1 + 3 - (isoWeekdayFromDays (daysFromCivil y 1 1 + 3) - 1) ∧
      daysFromCivil y 1 1 + 3 - (isoWeekdayFromDays (daysFromCivil y 1 1 + 3) - 1) ≤ daysFromCivil y 1 1 + 3 := by
    unfold isoWeekdayFromDays; omega
  have hdef : ∀ d, daysFromIsoWeek y w d =
      daysFromCivil y 1 1 + 3 - (isoWeekdayFromDays (daysFromCivil y 1 1 + 3) - 1) + (w - 1) * 7 + (d - 1) := by
    intro d; simp only [daysFromIsoWeek, jan4_eq]
  rw [hdef] at hy
  have hT : ThursdayOf (daysFromIsoWeek y w d) (daysFromIsoWeek y w 4) := by
    rw [hdef, hdef]
    generalize daysFromCivil y 1 1 + 3 - (isoWeekdayFromDays (daysFromCivil y 1 1 + 3) - 1) = w1 at *
    exact ⟨by unfold weekdayFromDays; omega, w1 + (w - 1) * 7, by omega, by omega, by omega⟩
  have hyear : (civilFromDays (daysFromIsoWeek y w 4)).1 = y :=
    civil_year_unique (by rw [hdef]; omega) (by rw [hdef]; omega)
  obtain ⟨h1, h2, h3⟩ := C57_thursday_rule _ _ hT
  rw [hyear] at h1 h2
  have e3 : (isoWeekFromDays (daysFromIsoWeek y w d)).2.2 = d := by rw [h3, hdef, hdef]; omega
  have e2 : (isoWeekFromDays (daysFromIsoWeek y w d)).2.1 = w := by
    rw [hdef 4] at h2
    generalize (isoWeekFromDays (daysFromIsoWeek y w d)).2.1 = w' at *
    omega
  exact Prod.ext h1 (Prod.ext e2 e3)

example : daysFromIsoWeek 2026 53 4 < daysFromCivil 2027 1 1 ∧
    isoWeekFromDays (daysFromCivil 2027 1 1) = (2026, 53, 5) := by decide

/-! ## C58: civil date-times -/

/-- Every instant has a civil date-time that exists, and it converts back to the instant; conversely every civil
date-time that exists comes back from its instant.  Exact arithmetic. -/
theorem C58_round_trip :
    (∀ t : Int, ValidCivil (civilFromUnixNanos t) ∧ unixNanosFromCivil (civilFromUnixNanos t) = t) ∧
      ∀ c : Civil, ValidCivil c → civilFromUnixNanos (unixNanosFromCivil c) = c :=
  ⟨civil_nanos, fun _ h => nanos_civil h⟩

/-- The same for every 64-bit instant in a build whose arithmetic wraps. -/
theorem C58_round_trip_wrapping (t : Int) (h : InI64 t) : unixNanosWrapping (civilFromUnixNanos t) = t := by
  have h1 := (civil_nanos t).2
  unfold unixNanosFromCivil at h1
  unfold unixNanosWrapping
  rw [wrap64_add_wrap, wrap64_add_left, h1, wrap64_id h]

example : InI64 1700000000123456789 := by decide

/-- With overflow checks the conversion back succeeds from one day after the smallest 64-bit instant on.  Missing:
the instants of the first, incomplete day (below). -/
theorem C58_round_trip_checked_partial (t : Int) (h : InI64 t) (h0 : -9223372036854775808 + 86400000000000 ≤ t) :
    unixNanosChecked (civilFromUnixNanos t) = some t := by
  obtain ⟨hv, h1⟩ := civil_nanos t
  have hb := tod_bounds hv
  obtain ⟨-, hh, hm, hs, hn⟩ := hv
  rw [unix_eq] at h1
  unfold unixNanosChecked
  unfold InI64 at h
  simp only [todNanos] at h1 hb
  generalize civilFromUnixNanos t = c at *
  rw [chk64_some (by unfold InI64; omega), Option.bind_eq_bind, Option.bind_some, chk64_some (by unfold InI64; omega),
    Option.bind_some, chk64_some (by unfold InI64; omega), Option.bind_some, chk64_some (by unfold InI64; omega)]
  congr 1; omega

example : InI64 (-9223372036854775808 + 86400000000000) := by decide

/-- The smallest instant panics there although its civil date-time is a 64-bit instant. -/
theorem C58_smallest_instant_panics_fails : unixNanosChecked (civilFromUnixNanos (-9223372036854775808)) = none := by
  decide +kernel

end Verif.Props
