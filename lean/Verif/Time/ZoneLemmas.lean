import Verif.Time.SpanLemmas
/-! # Zones with daylight-saving rules -/
namespace Verif.Time

/-- Day `d` is the `n`-th Sunday of the month. -/
def NthSunday (y m n d : Int) : Prop :=
  ValidDate GregorianLeap (y, m, d) ∧ weekdayFromDays (daysFromCivil y m d) = 0 ∧ 7 * (n - 1) < d ∧ d ≤ 7 * n

/-- Day `d` is the last Sunday of the month. -/
def LastSunday (y m d : Int) : Prop :=
  ValidDate GregorianLeap (y, m, d) ∧ weekdayFromDays (daysFromCivil y m d) = 0 ∧ monthLength GregorianLeap y m < d + 7

theorem nthSunday_eq {y m n d : Int} (h1 : 1 ≤ n) (h4 : n ≤ 4) (h : NthSunday y m n d) : nthWeekdayOfMonth y m n 0 = d := by
  obtain ⟨⟨a1, a2, a3, a4⟩, hs, hl, hu⟩ := h
  simp only at a1 a2 a3 a4
  obtain ⟨b1, b2, b3, b4, -⟩ := nthWeekday_spec (y := y) (weekday := 0) a1 a2 h1 (by omega : n ≤ 5) (by omega) (by omega)
  have b5 := b4 h4
  generalize nthWeekdayOfMonth y m n 0 = d' at *
  rw [days_split] at hs b3
  unfold weekdayFromDays at hs b3
  omega

theorem lastSunday_eq {y m d : Int} (h : LastSunday y m d) : nthWeekdayOfMonth y m 5 0 = d := by
  obtain ⟨⟨a1, a2, a3, a4⟩, hs, hl⟩ := h
  simp only at a1 a2 a3 a4
  obtain ⟨b1, b2, b3, -, b4⟩ := nthWeekday_spec (y := y) (weekday := 0) a1 a2 (by omega : (1 : Int) ≤ 5) (by omega) (by omega) (by omega)
  have b5 := b4 rfl
  generalize nthWeekdayOfMonth y m 5 0 = d' at *
  rw [days_split] at hs b3
  unfold weekdayFromDays at hs b3
  omega

/-- The second a transition happens. -/
def ruleAt (y : Int) (r : DstRule) (pre : Int) : Int :=
  daysFromCivil y r.month (nthWeekdayOfMonth y r.month r.week r.weekday) * 86400 + r.timeSeconds - pre

/-- A rule's day lies in its month. -/
theorem ruleAt_bounds (y : Int) (r : DstRule) (pre : Int) (hm : 1 ≤ r.month ∧ r.month ≤ 12) (hw : 1 ≤ r.week ∧ r.week ≤ 5)
    (hd : 0 ≤ r.weekday ∧ r.weekday ≤ 6) :
    daysFromCivil y 1 1 * 86400 + 28 * (r.month - 1) * 86400 + r.timeSeconds - pre ≤ ruleAt y r pre ∧
      ruleAt y r pre ≤ daysFromCivil (y + 1) 1 1 * 86400 - 28 * (12 - r.month) * 86400 - 86400 + r.timeSeconds - pre := by
  obtain ⟨b1, b2, -⟩ := nthWeekday_spec (y := y) hm.1 hm.2 hw.1 hw.2 hd.1 hd.2
  unfold ruleAt
  rw [days_split y r.month (nthWeekdayOfMonth y r.month r.week r.weekday)]
  have e1 := monthStart_of y r.month hm.1 hm.2
  have e2 := monthStart_of y 1 (by omega) (by omega)
  have e3 := monthStart_of (y + 1) 1 (by omega) (by omega)
  have hs := monthStart_succ (12 * y + (r.month - 1))
  rw [show (12 * y + (r.month - 1)) / 12 = y by omega, show (12 * y + (r.month - 1)) % 12 + 1 = r.month by omega] at hs
  have m1 := monthStart_mono (show 12 * y + (1 - 1) ≤ 12 * y + (r.month - 1) by omega)
  have m2 := monthStart_mono (show 12 * y + (r.month - 1) + 1 ≤ 12 * (y + 1) + (1 - 1) by omega)
  rw [← e1, ← e2, ← e3]
  generalize nthWeekdayOfMonth y r.month r.week r.weekday = d at *
  omega

theorem year_secs (t : Int) :
    daysFromCivil (civilFromDays (t / npd)).1 1 1 * 86400 ≤ t / nps ∧
      t / nps < daysFromCivil ((civilFromDays (t / npd)).1 + 1) 1 1 * 86400 := by
  have := civil_year_bounds (t / npd)
  omega

theorem transitions3 (z : ZoneSpec) {dst : Int} {s e : DstRule} (h : z.dst = some (dst, s, e)) (y : Int) :
    z.transitions (y - 1) 3 = sortBy (fun a b => a.at_ ≤ b.at_)
      [⟨ruleAt (y - 1) s z.std, dst⟩, ⟨ruleAt (y - 1) e dst, z.std⟩, ⟨ruleAt y s z.std, dst⟩, ⟨ruleAt y e dst, z.std⟩,
        ⟨ruleAt (y + 1) s z.std, dst⟩, ⟨ruleAt (y + 1) e dst, z.std⟩] := by
  unfold ZoneSpec.transitions
  rw [h]
  simp [List.range, List.range.loop, dstTransitionsForYear, dstTransition, ruleAt]
  rw [show y - 1 + 2 = y + 1 by omega]

/-- Daylight time starts and ends within a year, in this order. -/
theorem north (z : ZoneSpec) {dst : Int} {s e : DstRule} (h : z.dst = some (dst, s, e))
    (hb : ∀ y, daysFromCivil y 1 1 * 86400 ≤ ruleAt y s z.std ∧ ruleAt y s z.std < ruleAt y e dst ∧
      ruleAt y e dst < daysFromCivil (y + 1) 1 1 * 86400) (t : Int) :
    z.toLocal t = civilFromUnixNanos (t + (if ruleAt (civilFromDays (t / npd)).1 s z.std ≤ t / nps ∧
      t / nps < ruleAt (civilFromDays (t / npd)).1 e dst then dst else z.std) * nps) := by
  unfold ZoneSpec.toLocal
  rw [h]
  simp only
  rw [transitions3 z h]
  have hy := year_secs t
  generalize (civilFromDays (t / npd)).1 = y at *
  have h0 := hb (y - 1)
  have h1 := hb y
  have h2 := hb (y + 1)
  rw [show y - 1 + 1 = y by omega] at h0
  unfold toLocal offsetAt
  congr 3
  generalize t / nps = u at *
  generalize ruleAt (y - 1) s z.std = a at *
  generalize ruleAt (y - 1) e dst = b at *
  generalize ruleAt y s z.std = c at *
  generalize ruleAt y e dst = d at *
  generalize ruleAt (y + 1) s z.std = f at *
  generalize ruleAt (y + 1) e dst = g at *
  generalize daysFromCivil y 1 1 = j at *
  generalize daysFromCivil (y + 1) 1 1 = k at *
  have hs : sortBy (fun a b : Transition => a.at_ ≤ b.at_) [⟨a, dst⟩, ⟨b, z.std⟩, ⟨c, dst⟩, ⟨d, z.std⟩, ⟨f, dst⟩, ⟨g, z.std⟩]
      = [⟨a, dst⟩, ⟨b, z.std⟩, ⟨c, dst⟩, ⟨d, z.std⟩, ⟨f, dst⟩, ⟨g, z.std⟩] := by
    simp [sortBy, insertBy, show f ≤ g by omega, show d ≤ f by omega, show c ≤ d by omega, show b ≤ c by omega,
      show a ≤ b by omega]
  rw [hs]
  simp only [offsetLoop]
  rw [if_pos (by omega), if_pos (by omega)]
  by_cases hc : c ≤ u
  · rw [if_pos hc]
    by_cases hd : d ≤ u
    · rw [if_pos hd, if_neg (by omega), if_neg (by omega)]
    · rw [if_neg hd, if_pos (by omega)]
  · rw [if_neg hc, if_neg (by omega)]

/-- Daylight time ends and starts again within a year, in this order. -/
theorem south (z : ZoneSpec) {dst : Int} {s e : DstRule} (h : z.dst = some (dst, s, e))
    (hb : ∀ y, daysFromCivil y 1 1 * 86400 ≤ ruleAt y e dst ∧ ruleAt y e dst < ruleAt y s z.std ∧
      ruleAt y s z.std < daysFromCivil (y + 1) 1 1 * 86400) (t : Int) :
    z.toLocal t = civilFromUnixNanos (t + (if ruleAt (civilFromDays (t / npd)).1 e dst ≤ t / nps ∧
      t / nps < ruleAt (civilFromDays (t / npd)).1 s z.std then z.std else dst) * nps) := by
  unfold ZoneSpec.toLocal
  rw [h]
  simp only
  rw [transitions3 z h]
  have hy := year_secs t
  generalize (civilFromDays (t / npd)).1 = y at *
  have h0 := hb (y - 1)
  have h1 := hb y
  have h2 := hb (y + 1)
  rw [show y - 1 + 1 = y by omega] at h0
  unfold toLocal offsetAt
  congr 3
  generalize t / nps = u at *
  generalize ruleAt (y - 1) s z.std = a at *
  generalize ruleAt (y - 1) e dst = b at *
  generalize ruleAt y s z.std = c at *
  generalize ruleAt y e dst = d at *
  generalize ruleAt (y + 1) s z.std = f at *
  generalize ruleAt (y + 1) e dst = g at *
  generalize daysFromCivil y 1 1 = j at *
  generalize daysFromCivil (y + 1) 1 1 = k at *
  have hs : sortBy (fun a b : Transition => a.at_ ≤ b.at_) [⟨a, dst⟩, ⟨b, z.std⟩, ⟨c, dst⟩, ⟨d, z.std⟩, ⟨f, dst⟩, ⟨g, z.std⟩]
      = [⟨b, z.std⟩, ⟨a, dst⟩, ⟨d, z.std⟩, ⟨c, dst⟩, ⟨g, z.std⟩, ⟨f, dst⟩] := by
    simp [sortBy, insertBy, show ¬ f ≤ g by omega, show d ≤ g by omega, show ¬ c ≤ d by omega, show c ≤ g by omega, show b ≤ d by omega,
      show ¬ a ≤ b by omega, show a ≤ d by omega]
  rw [hs]
  simp only [offsetLoop]
  rw [if_pos (by omega), if_pos (by omega)]
  by_cases hc : d ≤ u
  · rw [if_pos hc]
    by_cases hd : c ≤ u
    · rw [if_pos hd, if_neg (by omega), if_neg (by omega)]
    · rw [if_neg hd, if_pos (by omega)]
  · rw [if_neg hc, if_neg (by omega)]

end Verif.Time
