import Verif.Time.InstantLemmas
/-! # Calendar spans and daylight-saving rules -/
namespace Verif.Time

/-- Months counted from January of the year 0. -/
def monthIndex (c : Civil) : Int := 12 * c.year + (c.month - 1)

theorem addSpan_zero {c : Civil} (h : ValidCivil c) (k : Int) :
    addSpan c k 0 = { c with
      year := (monthIndex c + k) / 12
      month := (monthIndex c + k) % 12 + 1
      day := min c.day (monthLength GregorianLeap ((monthIndex c + k) / 12) ((monthIndex c + k) % 12 + 1)) } := by
  obtain ⟨hv, -⟩ := h
  obtain ⟨h1, h2, h3, h4⟩ := hv
  simp only at h1 h2 h3 h4
  unfold addSpan
  have ht : c.year * 12 + (c.month - 1) + k = monthIndex c + k := by unfold monthIndex; omega
  simp only [ht]
  generalize monthIndex c + k = t
  have hl := lastDay_eq (y := t / 12) (m := t % 12 + 1) (by omega) (by omega)
  rw [hl]
  have hb := monthLength_bounds GregorianLeap (t / 12) (t % 12 + 1)
  have hv : ValidDate GregorianLeap (t / 12, t % 12 + 1, min c.day (monthLength GregorianLeap (t / 12) (t % 12 + 1))) := by
    refine ⟨?_, ?_, ?_, ?_⟩ <;> simp only <;> omega
  have := civil_days hv
  simp only at this
  rw [Int.add_zero, this]

theorem addSpan_days (c : Civil) (k d : Int) :
    daysFromCivil (addSpan c k d).year (addSpan c k d).month (addSpan c k d).day
      = daysFromCivil (addSpan c k 0).year (addSpan c k 0).month (addSpan c k 0).day + d := by
  unfold addSpan
  simp only [(civil_spec _).2]
  omega

theorem addSpan_valid {c : Civil} (h : ValidCivil c) (k d : Int) : ValidCivil (addSpan c k d) := by
  obtain ⟨-, h1⟩ := h
  refine ⟨?_, h1⟩
  unfold addSpan
  exact (civil_spec _).1

theorem monthIndex_addSpan {c : Civil} (h : ValidCivil c) (k : Int) : monthIndex (addSpan c k 0) = monthIndex c + k := by
  rw [addSpan_zero h]; unfold monthIndex; simp only; omega

/-- An instant lies in the month of its date. -/
theorem nanos_in_month {c : Civil} (h : ValidCivil c) :
    monthStart (monthIndex c) * npd ≤ unixNanosFromCivil c ∧ unixNanosFromCivil c < monthStart (monthIndex c + 1) * npd := by
  have hb := tod_bounds h
  have hm := days_in_month h.1
  rw [unix_eq]; unfold monthIndex
  omega

theorem nanos_lt_of_month {c d : Civil} (hc : ValidCivil c) (hd : ValidCivil d) (h : monthIndex c < monthIndex d) :
    unixNanosFromCivil c < unixNanosFromCivil d := by
  have h1 := nanos_in_month hc
  have h2 := nanos_in_month hd
  have := monthStart_mono (show monthIndex c + 1 ≤ monthIndex d by omega)
  omega

theorem monthsForward_spec (a b : Int) :
    unixNanosFromCivil (addSpan (civilFromUnixNanos a) (monthsForward a b) 0) ≤ b ∧
      ∀ k, monthsForward a b < k → b < unixNanosFromCivil (addSpan (civilFromUnixNanos a) k 0) := by
  have ha := (civil_nanos a).1
  have hb := (civil_nanos b).1
  have hbn := (civil_nanos b).2
  unfold monthsForward
  simp only
  obtain ⟨m, hm⟩ : ∃ m, m = ((civilFromUnixNanos b).year - (civilFromUnixNanos a).year) * 12
      + ((civilFromUnixNanos b).month - (civilFromUnixNanos a).month) := ⟨_, rfl⟩
  rw [← hm]
  have hmi : monthIndex (civilFromUnixNanos a) + m = monthIndex (civilFromUnixNanos b) := by unfold monthIndex; omega
  have later : ∀ k, m < k → b < unixNanosFromCivil (addSpan (civilFromUnixNanos a) k 0) := by
    intro k hk
    have := nanos_lt_of_month hb (addSpan_valid ha k 0) (by rw [monthIndex_addSpan ha]; omega)
    omega
  by_cases h : unixNanosFromCivil (addSpan (civilFromUnixNanos a) m 0) > b
  · rw [if_pos h]
    refine ⟨?_, fun k hk => ?_⟩
    · have := nanos_lt_of_month (addSpan_valid ha (m - 1) 0) hb (by rw [monthIndex_addSpan ha]; omega)
      omega
    · by_cases hk' : k = m
      · subst hk'; omega
      · exact later k (by omega)
  · rw [if_neg h]
    exact ⟨by omega, later⟩

theorem addSpan_mono {c : Civil} (h : ValidCivil c) {j k : Int} (hjk : j < k) :
    unixNanosFromCivil (addSpan c j 0) < unixNanosFromCivil (addSpan c k 0) :=
  nanos_lt_of_month (addSpan_valid h j 0) (addSpan_valid h k 0) (by
    rw [monthIndex_addSpan h, monthIndex_addSpan h]; omega)

theorem addSpan_self {c : Civil} (h : ValidCivil c) : addSpan c 0 0 = c := by
  rw [addSpan_zero h]
  obtain ⟨⟨h1, h2, h3, h4⟩, -⟩ := h
  simp only at h1 h2 h3 h4
  have e1 : (monthIndex c + 0) / 12 = c.year := by unfold monthIndex; omega
  have e2 : (monthIndex c + 0) % 12 + 1 = c.month := by unfold monthIndex; omega
  rw [e1, e2, min_eq_left h4]

theorem monthsForward_self (a : Int) : monthsForward a a = 0 := by
  unfold monthsForward
  simp only [Int.sub_self, Int.zero_mul, Int.add_zero]
  rw [addSpan_self (civil_nanos a).1, (civil_nanos a).2, if_neg (by omega)]

theorem monthsForward_nonneg {a b : Int} (h : a ≤ b) : 0 ≤ monthsForward a b := by
  by_contra hc
  have := (monthsForward_spec a b).2 0 (by omega)
  rw [addSpan_self (civil_nanos a).1, (civil_nanos a).2] at this
  omega

/-! ## Daylight-saving rules -/

theorem backUp_spec (last : Int) (f : Nat) (day : Int) (h : day ≤ last + 7 * f) :
    backUp last f day ≤ last ∧ (day ≤ last → backUp last f day = day) ∧
      (last < day → last < backUp last f day + 7) ∧ (backUp last f day) % 7 = day % 7 ∧ backUp last f day ≤ day := by
  induction f generalizing day with
  | zero => simp [backUp]; omega
  | succ f ih =>
    rw [backUp]
    by_cases hd : day > last
    · rw [if_pos hd]
      have := ih (day - 7) (by push_cast at h; omega)
      refine ⟨this.1, by omega, fun _ => ?_, by omega, by omega⟩
      by_cases h7 : day - 7 ≤ last
      · have := this.2.1 h7; omega
      · exact this.2.2.1 (by omega)
    · rw [if_neg hd]; omega

/-- Week `week` of a month, for `1 ≤ week ≤ 4`, or the last one for `week = 5`. -/
theorem nthWeekday_spec {y m week weekday : Int} (hm : 1 ≤ m) (hm' : m ≤ 12) (hw : 1 ≤ week) (hw' : week ≤ 5)
    (hd : 0 ≤ weekday) (hd' : weekday ≤ 6) :
    let d := nthWeekdayOfMonth y m week weekday
    1 ≤ d ∧ d ≤ monthLength GregorianLeap y m ∧ weekdayFromDays (daysFromCivil y m d) = weekday ∧
      (week ≤ 4 → (d - 1) / 7 + 1 = week) ∧ (week = 5 → monthLength GregorianLeap y m < d + 7) := by
  intro d
  have hb := monthLength_bounds GregorianLeap y m
  have hdef : d = backUp (monthLength GregorianLeap y m) 5
      (1 + (weekday + 7 - weekdayFromDays (daysFromCivil y m 1)) % 7 + (week - 1) * 7) := by
    change nthWeekdayOfMonth y m week weekday = _
    unfold nthWeekdayOfMonth; simp only [lastDay_eq hm hm']
  clear_value d
  rw [days_split y m d]
  unfold weekdayFromDays at *
  have := backUp_spec (monthLength GregorianLeap y m) 5
      (1 + (weekday + 7 - (daysFromCivil y m 1 + 4) % 7) % 7 + (week - 1) * 7) (by omega)
  rw [← hdef] at this
  generalize daysFromCivil y m 1 = f at *
  generalize monthLength GregorianLeap y m = L at *
  obtain ⟨a1, a2, a3, a4, a5⟩ := this
  by_cases hle : 1 + (weekday + 7 - (f + 4) % 7) % 7 + (week - 1) * 7 ≤ L
  · have := a2 hle
    refine ⟨by omega, by omega, by omega, by omega, by omega⟩
  · have := a3 (by omega)
    refine ⟨by omega, by omega, by omega, by omega, by omega⟩

end Verif.Time
