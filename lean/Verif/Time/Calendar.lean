import Mathlib.Tactic.Ring
/-! # The calendar arithmetic of `logicaffeine_base::temporal`

All numbers are `Int`: the `i64` arithmetic is modelled exactly (no wrap-around), months and days (`u32` in
the code) are the same numbers.  Rust's `/` truncates and is `Int.tdiv`; `div_euclid`/`rem_euclid` are
`Int.ediv`/`Int.emod`, written `/` and `%`. -/
namespace Verif.Time

/-- `is_gregorian_leap`, base/src/temporal.rs:859-861 (`%` of Rust is `Int.tmod`). -/
def isGregorianLeap (year : Int) : Bool :=
  (decide (year.tmod 4 = 0) && decide (year.tmod 100 ≠ 0)) || decide (year.tmod 400 = 0)

/-- `is_julian_leap`, base/src/temporal.rs:865-867. -/
def isJulianLeap (year : Int) : Bool := decide (year % 4 = 0)

/-- `days_from_civil`, base/src/temporal.rs:871-879. -/
def daysFromCivil (year month day : Int) : Int :=
  let y := if month ≤ 2 then year - 1 else year
  let era := (if y ≥ 0 then y else y - 399).tdiv 400
  let yoe := y - era * 400
  let doy := (153 * (if month > 2 then month - 3 else month + 9) + 2).tdiv 5 + day - 1
  let doe := yoe * 365 + yoe.tdiv 4 - yoe.tdiv 100 + doy
  era * 146097 + doe - 719468

/-- `civil_from_days`, base/src/temporal.rs:882-894. -/
def civilFromDays (z0 : Int) : Int × Int × Int :=
  let z := z0 + 719468
  let era := (if z ≥ 0 then z else z - 146096).tdiv 146097
  let doe := z - era * 146097
  let yoe := (doe - doe.tdiv 1460 + doe.tdiv 36524 - doe.tdiv 146096).tdiv 365
  let y := yoe + era * 400
  let doy := doe - (365 * yoe + yoe.tdiv 4 - yoe.tdiv 100)
  let mp := (5 * doy + 2).tdiv 153
  let day := doy - (153 * mp + 2).tdiv 5 + 1
  let month := if mp < 10 then mp + 3 else mp - 9
  let year := if month ≤ 2 then y + 1 else y
  (year, month, day)

/-- `last_day_of_month`, base/src/temporal.rs:897-904. -/
def lastDayOfMonth (year month : Int) : Int :=
  if month = 1 ∨ month = 3 ∨ month = 5 ∨ month = 7 ∨ month = 8 ∨ month = 10 ∨ month = 12 then 31
  else if month = 4 ∨ month = 6 ∨ month = 9 ∨ month = 11 then 30
  else if month = 2 then (if isGregorianLeap year then 29 else 28)
  else 0

/-- `weekday_from_days`, base/src/temporal.rs:907-909. -/
def weekdayFromDays (z : Int) : Int := (z + 4) % 7

/-- `iso_weekday_from_days`, base/src/temporal.rs:912-914. -/
def isoWeekdayFromDays (z : Int) : Int := (z + 3) % 7 + 1

/-- `day_of_year`, base/src/temporal.rs:917-919. -/
def dayOfYear (year month day : Int) : Int := daysFromCivil year month day - daysFromCivil year 1 1 + 1

/-- `iso_week_from_days`, base/src/temporal.rs:924-936. -/
def isoWeekFromDays (z : Int) : Int × Int × Int :=
  let isoDow := isoWeekdayFromDays z
  let thursday := z + (4 - isoDow)
  let isoYear := (civilFromDays thursday).1
  let jan4 := daysFromCivil isoYear 1 4
  let week1Monday := jan4 - (isoWeekdayFromDays jan4 - 1)
  let week := (z - week1Monday).tdiv 7 + 1
  (isoYear, week, isoDow)

/-- `days_from_iso_week`, base/src/temporal.rs:940-944. -/
def daysFromIsoWeek (isoYear week isoWeekday : Int) : Int :=
  let jan4 := daysFromCivil isoYear 1 4
  let week1Monday := jan4 - (isoWeekdayFromDays jan4 - 1)
  week1Monday + (week - 1) * 7 + (isoWeekday - 1)

/-- `UNIX_EPOCH_JDN`, base/src/temporal.rs:15. -/
abbrev unixEpochJdn : Int := 2440588

/-- `jdn_from_julian`, base/src/temporal.rs:947-952. -/
def jdnFromJulian (year month day : Int) : Int :=
  let a := (14 - month).tdiv 12
  let y := year + 4800 - a
  let m := month + 12 * a - 3
  day + (153 * m + 2).tdiv 5 + 365 * y + y.tdiv 4 - 32083

/-- `julian_from_jdn`, base/src/temporal.rs:955-964. -/
def julianFromJdn (jdn : Int) : Int × Int × Int :=
  let c := jdn + 32082
  let d := (4 * c + 3).tdiv 1461
  let e := c - (1461 * d).tdiv 4
  let m := (5 * e + 2).tdiv 153
  let day := e - (153 * m + 2).tdiv 5 + 1
  let month := m + 3 - 12 * m.tdiv 10
  let year := d - 4800 + m.tdiv 10
  (year, month, day)

/-- `days_from_julian`, base/src/temporal.rs:967-969. -/
def daysFromJulian (year month day : Int) : Int := jdnFromJulian year month day - unixEpochJdn

/-- `julian_from_days`, base/src/temporal.rs:972-974. -/
def julianFromDays (z : Int) : Int × Int × Int := julianFromJdn (z + unixEpochJdn)

/-! ## Lemmas -/

theorem tdiv_nonneg {a b : Int} (ha : 0 ≤ a) : a.tdiv b = a / b := Int.tdiv_eq_ediv_of_nonneg ha

theorem tmod_zero_iff (y n : Int) : y.tmod n = 0 ↔ y % n = 0 := by
  rw [← Int.dvd_iff_tmod_eq_zero, Int.dvd_iff_emod_eq_zero]

theorem leap_iff (y : Int) :
    isGregorianLeap y = true ↔ (y % 4 = 0 ∧ y % 100 ≠ 0) ∨ y % 400 = 0 := by
  simp [isGregorianLeap, tmod_zero_iff, -Int.tmod_eq_emod]

/-- The era computation is a floor division. -/
theorem era_floor (y : Int) : (if y ≥ 0 then y else y - 399).tdiv 400 = y / 400 := by
  split
  · exact tdiv_nonneg (by omega)
  · rw [← Int.neg_inj, ← Int.neg_tdiv, tdiv_nonneg (by omega)]; omega

theorem era_floor' (z : Int) : (if z ≥ 0 then z else z - 146096).tdiv 146097 = z / 146097 := by
  split
  · exact tdiv_nonneg (by omega)
  · rw [← Int.neg_inj, ← Int.neg_tdiv, tdiv_nonneg (by omega)]; omega

/-- `days_from_civil` with floor divisions. -/
theorem daysFromCivil_eq (y m d : Int) (hm : 1 ≤ m) (hm' : m ≤ 12) :
    daysFromCivil y m d =
      let y' := if m ≤ 2 then y - 1 else y
      let mp := if m > 2 then m - 3 else m + 9
      365 * y' + y' / 4 - y' / 100 + y' / 400 + (153 * mp + 2) / 5 + d - 1 - 719468 := by
  simp only [daysFromCivil, era_floor]
  generalize hy : (if m ≤ 2 then y - 1 else y) = y'
  generalize hmp : (if m > 2 then m - 3 else m + 9) = mp
  have h1 : 0 ≤ mp := by split at hmp <;> omega
  rw [tdiv_nonneg (a := 153 * mp + 2) (by omega), tdiv_nonneg (a := y' - y' / 400 * 400) (b := 4) (by omega),
    tdiv_nonneg (a := y' - y' / 400 * 400) (b := 100) (by omega)]
  omega

/-- Year of the era from the day of the era (Hinnant's division trick). -/
theorem yoe_eq (yoe doy : Int) (h0 : 0 ≤ yoe) (h1 : yoe < 400) (h2 : 0 ≤ doy) (h3 : doy ≤ 365)
    (h4 : doy = 365 → (yoe % 4 = 3 ∧ yoe % 100 ≠ 99) ∨ yoe = 399) :
    let doe := yoe * 365 + yoe / 4 - yoe / 100 + doy
    (doe - doe / 1460 + doe / 36524 - doe / 146096) / 365 = yoe := by
  intro doe
  have hdoe : doe = yoe * 365 + yoe / 4 - yoe / 100 + doy := rfl
  clear_value doe
  obtain ⟨c, hc⟩ : ∃ c, c = yoe / 100 := ⟨_, rfl⟩
  obtain ⟨q, hq⟩ : ∃ q, q = yoe / 4 - 25 * c := ⟨_, rfl⟩
  obtain ⟨r, hr⟩ : ∃ r, r = yoe % 4 := ⟨_, rfl⟩
  have hc4 : c = 0 ∨ c = 1 ∨ c = 2 ∨ c = 3 := by omega
  have e0 : yoe = 100 * c + 4 * q + r := by omega
  have e1 : doe = 36524 * c + 1461 * q + 365 * r + doy := by omega
  have e2 : doe / 36524 - doe / 146096 = c := by
    rcases hc4 with rfl | rfl | rfl | rfl <;> omega
  have e3 : doe / 1460 = 25 * c + q + (24 * c + q + 365 * r + doy) / 1460 := by
    rw [e1]; omega
  have e4 : doe - doe / 1460 + doe / 36524 - doe / 146096
      = 365 * yoe + (doy - (24 * c + q + 365 * r + doy) / 1460) := by omega
  rw [e4]
  have e5 : (24 * c + q + 365 * r + doy) / 1460 = 0 ∨ (24 * c + q + 365 * r + doy) / 1460 = 1 := by omega
  rcases e5 with e5 | e5 <;> rw [e5] <;> rcases hc4 with rfl | rfl | rfl | rfl <;> omega

end Verif.Time
