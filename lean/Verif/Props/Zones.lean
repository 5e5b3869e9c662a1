import Verif.Time.ZoneLemmas
/-! # C59–C61, C66, C68: zones, spans, business days, leap seconds -/
namespace Verif.Props
open Verif.Time

/-! ## C59: conversion between instants and local times -/

/-- In a table ordered by time, the offset in force is that of the latest transition not after the instant, or the
base offset when there is none. -/
theorem C59_offset (ts : List Transition) (base t : Int) (hs : ts.Pairwise (fun a b => a.at_ < b.at_)) :
    (∀ x ∈ ts, x.at_ * nps ≤ t → (∀ y ∈ ts, y.at_ * nps ≤ t → y.at_ ≤ x.at_) → offsetAt ts base t = x.offset) ∧
      ((∀ x ∈ ts, t < x.at_ * nps) → offsetAt ts base t = base) := by
  unfold offsetAt
  have key : ∀ x : Int, x * nps ≤ t ↔ x ≤ t / nps := by intro x; omega
  have key' : ∀ x : Int, t < x * nps ↔ t / nps < x := by intro x; omega
  simp only [key, key']
  generalize t / nps = u
  clear key key'
  constructor
  · induction ts generalizing base with
    | nil => intro x hx; simp at hx
    | cons a l ih =>
      intro x hx hle hmax
      rw [List.pairwise_cons] at hs
      rw [offsetLoop]
      by_cases ha : a.at_ ≤ u
      · rw [if_pos ha]
        rcases List.mem_cons.1 hx with rfl | hx'
        · cases l with
          | nil => rfl
          | cons b l' =>
            rw [offsetLoop, if_neg]
            intro hb
            have h1 := hs.1 b List.mem_cons_self
            have h2 := hmax b (by simp) hb
            omega
        · exact ih hs.2 (base := a.offset) x hx' hle (fun y hy => hmax y (List.mem_cons_of_mem _ hy))
      · exfalso
        rcases List.mem_cons.1 hx with rfl | hx'
        · exact ha hle
        · have := hs.1 x hx'; omega
  · intro h
    cases ts with
    | nil => rfl
    | cons a l =>
      have := h a List.mem_cons_self
      rw [offsetLoop, if_neg (by omega)]

/-- A local time that occurs is sent to the earliest or the latest instant that shows it, as the caller chose. -/
theorem C59_from_local (ts : List Transition) (base : Int) (c : Civil) (hv : ValidCivil c)
    (hocc : ∃ t, toLocal ts base t = c) :
    (toLocal ts base (fromLocal ts base c .earlier) = c ∧
      ∀ t, toLocal ts base t = c → fromLocal ts base c .earlier ≤ t) ∧
    (toLocal ts base (fromLocal ts base c .later) = c ∧
      ∀ t, toLocal ts base t = c → t ≤ fromLocal ts base c .later) := by
  obtain ⟨t0, ht0⟩ := hocc
  have hm := (mem_valid (ts := ts) (base := base) hv t0).2 ht0
  have hne : validInstants ts base (unixNanosFromCivil c) ≠ [] := List.ne_nil_of_mem hm
  have hp : (validInstants ts base (unixNanosFromCivil c)).Pairwise (· ≤ ·) :=
    (valid_pairwise ts base _).imp (fun h => Int.le_of_lt h)
  obtain ⟨a1, a2⟩ := headD_least hp hne
  obtain ⟨b1, b2⟩ := getLastD_greatest hp hne
  rw [fromLocal_eq ts base c .earlier hne, fromLocal_eq ts base c .later hne]
  simp only
  exact ⟨⟨(mem_valid hv _).1 a1, fun t ht => a2 t ((mem_valid hv t).2 ht)⟩,
    (mem_valid hv _).1 b1, fun t ht => b2 t ((mem_valid hv t).2 ht)⟩

/-- To local time and back: the instant itself when no other instant shows the same local time, and in any case an
instant that shows the same local time. -/
theorem C59_round_trip (ts : List Transition) (base t : Int) (fold : Fold) :
    toLocal ts base (fromLocal ts base (toLocal ts base t) fold) = toLocal ts base t ∧
      ((∀ s, toLocal ts base s = toLocal ts base t → s = t) → fromLocal ts base (toLocal ts base t) fold = t) := by
  have hv : ValidCivil (toLocal ts base t) := by unfold toLocal; exact (civil_nanos _).1
  obtain ⟨⟨h1, -⟩, h2, -⟩ := C59_from_local ts base _ hv ⟨t, rfl⟩
  cases fold with
  | earlier => exact ⟨h1, fun h => h _ h1⟩
  | later => exact ⟨h2, fun h => h _ h2⟩

/-- A table for the examples: one hour forward at 10⁶ s, one hour back at 2·10⁶ s. -/
def sampleTable : List Transition := [⟨1000000, 3600⟩, ⟨2000000, 0⟩]

/-- An ambiguous local time: two instants one hour apart show it. -/
example : sampleTable.Pairwise (fun a b => a.at_ < b.at_) ∧
    toLocal sampleTable 0 (1999000 * nps) = toLocal sampleTable 0 (2002600 * nps) ∧
    fromLocal sampleTable 0 (toLocal sampleTable 0 (2002600 * nps)) .earlier = 1999000 * nps ∧
    fromLocal sampleTable 0 (toLocal sampleTable 0 (2002600 * nps)) .later = 2002600 * nps := by
  decide +kernel

/-- A local time that does not occur (skipped by a forward transition) is sent to the local time read with the
greatest or the least offset the zone ever uses. -/
theorem C59_gap (ts : List Transition) (base : Int) (c : Civil) (hv : ValidCivil c)
    (hgap : ∀ t, toLocal ts base t ≠ c) :
    (∃ o, (o = base ∨ ∃ x ∈ ts, x.offset = o) ∧ fromLocal ts base c .earlier = unixNanosFromCivil c - o * nps ∧
      ∀ o', (o' = base ∨ ∃ x ∈ ts, x.offset = o') → o' ≤ o) ∧
    (∃ o, (o = base ∨ ∃ x ∈ ts, x.offset = o) ∧ fromLocal ts base c .later = unixNanosFromCivil c - o * nps ∧
      ∀ o', (o' = base ∨ ∃ x ∈ ts, x.offset = o') → o ≤ o') := by
  have hnil : validInstants ts base (unixNanosFromCivil c) = [] := by
    rw [List.eq_nil_iff_forall_not_mem]
    intro t ht
    exact hgap t ((mem_valid hv t).1 ht)
  rw [fromLocal_gap ts base c .earlier hnil, fromLocal_gap ts base c .later hnil]
  simp only
  have hmem : ∀ x, x ∈ gapInstants ts base (unixNanosFromCivil c) ↔
      ∃ o, (o = base ∨ ∃ x ∈ ts, x.offset = o) ∧ unixNanosFromCivil c - o * nps = x := by
    intro x
    unfold gapInstants
    rw [(sortBy_perm _ _).mem_iff, List.mem_map]
    simp only [mem_zoneOffsets]
  have hp : (gapInstants ts base (unixNanosFromCivil c)).Pairwise (· ≤ ·) := sorted_le _
  have hne : gapInstants ts base (unixNanosFromCivil c) ≠ [] :=
    List.ne_nil_of_mem ((hmem _).2 ⟨base, Or.inl rfl, rfl⟩)
  obtain ⟨a1, a2⟩ := headD_least hp hne
  obtain ⟨b1, b2⟩ := getLastD_greatest hp hne
  obtain ⟨o, ho, ho'⟩ := (hmem _).1 a1
  obtain ⟨p, hp1, hp'⟩ := (hmem _).1 b1
  refine ⟨⟨o, ho, ho'.symm, fun o' h => ?_⟩, ⟨p, hp1, hp'.symm, fun o' h => ?_⟩⟩
  · have := a2 _ ((hmem _).2 ⟨o', h, rfl⟩); omega
  · have := b2 _ ((hmem _).2 ⟨o', h, rfl⟩); omega

/-- A skipped local time of the sample table. -/
example : ValidCivil (civilFromUnixNanos (1001800 * nps)) ∧
    ∀ t, toLocal sampleTable 0 t ≠ civilFromUnixNanos (1001800 * nps) := by
  refine ⟨(civil_nanos _).1, fun t h => ?_⟩
  rw [shows_iff (civil_nanos _).1, (civil_nanos _).2] at h
  unfold offsetAt sampleTable at h
  simp only [offsetLoop] at h
  split at h
  · split at h <;> omega
  · omega

/-! ## C60: spans and months between instants -/

/-- Adding months moves the month by that many, keeps the time of day, and keeps the day of the month or takes the
last day when the month is shorter; adding days then moves the date by that many days.  The result is valid. -/
theorem C60_add_span (c : Civil) (hv : ValidCivil c) (k d : Int) :
    ValidCivil (addSpan c k d) ∧
    (12 * (addSpan c k 0).year + (addSpan c k 0).month = 12 * c.year + c.month + k ∧
      (addSpan c k 0).day = min c.day (monthLength GregorianLeap (addSpan c k 0).year (addSpan c k 0).month)) ∧
    daysFromCivil (addSpan c k d).year (addSpan c k d).month (addSpan c k d).day
      = daysFromCivil (addSpan c k 0).year (addSpan c k 0).month (addSpan c k 0).day + d ∧
    ((addSpan c k d).hour = c.hour ∧ (addSpan c k d).minute = c.minute ∧ (addSpan c k d).second = c.second ∧
      (addSpan c k d).nanosecond = c.nanosecond) := by
  refine ⟨addSpan_valid hv k d, ⟨?_, ?_⟩, addSpan_days c k d, rfl, rfl, rfl, rfl⟩
  · have := monthIndex_addSpan hv k
    unfold monthIndex at this; omega
  · rw [addSpan_zero hv k]

example : ValidCivil ⟨2024, 1, 31, 12, 0, 0, 0⟩ ∧
    addSpan ⟨2024, 1, 31, 12, 0, 0, 0⟩ 1 0 = ⟨2024, 2, 29, 12, 0, 0, 0⟩ := by
  unfold ValidCivil ValidDate; decide

/-- For `a ≤ b`, `months_between a b` is the greatest number of months that can be added to `a` without passing
`b`. -/
theorem C60_months_between (a b : Int) (h : a ≤ b) :
    unixNanosFromCivil (addSpan (civilFromUnixNanos a) (monthsBetween a b) 0) ≤ b ∧ 0 ≤ monthsBetween a b ∧
      ∀ k, unixNanosFromCivil (addSpan (civilFromUnixNanos a) k 0) ≤ b ↔ k ≤ monthsBetween a b := by
  have hm : monthsBetween a b = monthsForward a b := by unfold monthsBetween; rw [if_neg (by omega)]
  rw [hm]
  obtain ⟨h1, h2⟩ := monthsForward_spec a b
  refine ⟨h1, monthsForward_nonneg h, fun k => ⟨fun hk => ?_, fun hk => ?_⟩⟩
  · by_contra hc
    have := h2 k (by omega); omega
  · rcases Int.lt_or_eq_of_le hk with hlt | rfl
    · have := addSpan_mono (civil_nanos a).1 hlt; omega
    · exact h1

example : monthsBetween (unixNanosFromCivil ⟨2024, 1, 31, 0, 0, 0, 0⟩) (unixNanosFromCivil ⟨2025, 3, 30, 0, 0, 0, 0⟩) = 13 := by
  decide +kernel

/-- Antisymmetry, and years are twelve months rounded towards zero. -/
theorem C60_antisymmetric (a b : Int) :
    monthsBetween b a = -monthsBetween a b ∧ yearsBetween b a = -yearsBetween a b ∧
      (a ≤ b → 12 * yearsBetween a b ≤ monthsBetween a b ∧ monthsBetween a b < 12 * yearsBetween a b + 12) := by
  have h : monthsBetween b a = -monthsBetween a b := by
    unfold monthsBetween
    rcases Int.lt_trichotomy a b with h | h | h
    · rw [if_pos h, if_neg (by omega)]
    · subst h; rw [if_neg (by omega), monthsForward_self]; rfl
    · rw [if_neg (by omega), if_pos h]; omega
  refine ⟨h, ?_, fun hab => ?_⟩
  · unfold yearsBetween; rw [h, Int.neg_tdiv]
  · have h0 := (C60_months_between a b hab).2.1
    unfold yearsBetween
    rw [tdiv_nonneg h0]; omega

/-! ## C61: business days -/

/-- Saturday or Sunday. -/
def Weekend (z : Int) : Prop := weekdayFromDays z = 6 ∨ weekdayFromDays z = 0

instance (z : Int) : Decidable (Weekend z) := by unfold Weekend; infer_instance

/-- The number of days in `[a, b)` that are not on a weekend. -/
def weekdaysIn (a b : Int) : Int := ((Finset.Ico a b).filter (fun d => ¬ Weekend d)).card

theorem weekdaysIn_eq {a b : Int} (h : a ≤ b) : weekdaysIn a b = wk b - wk a := by
  rw [weekdaysIn, ← card_eq h]
  congr 2
  refine Finset.filter_congr (fun d _ => ?_)
  simp only [Weekend, weekdayFromDays]
  omega

theorem C61_between (a b : Int) :
    businessDaysBetween a b = if a ≤ b then weekdaysIn a b else -weekdaysIn b a := by
  rw [between_eq]
  split
  · rename_i h; rw [weekdaysIn_eq h]
  · rename_i h; rw [weekdaysIn_eq (by omega)]; omega

example : businessDaysBetween 0 10 = 7 ∧ businessDaysBetween 10 0 = -7 := by decide

/-- Moving by `n` business days ends on a weekday in the right direction, having passed exactly `|n|` weekdays
(the start is not counted, the end is). -/
theorem C61_add (z n : Int) :
    ∃ e, addBusinessDays z n = some e ∧ (n = 0 → e = z) ∧ (n ≠ 0 → ¬ Weekend e) ∧
      (0 < n → z < e ∧ weekdaysIn (z + 1) (e + 1) = n) ∧ (n < 0 → e < z ∧ weekdaysIn e z = -n) := by
  have hwk : ∀ e, isWeekend e = false → ¬ Weekend e := by
    intro e he hw
    simp only [isWeekend, Bool.or_eq_false_iff, decide_eq_false_iff_not] at he
    rcases hw with h | h
    · exact he.2 h
    · exact he.1 h
  unfold addBusinessDays
  by_cases hn : n ≥ 0
  · rw [if_pos hn]
    obtain ⟨e, h1, h2, h3, h4, h5⟩ := addLoop_up (3 * n.natAbs) n.natAbs z (by constructor <;> omega)
    refine ⟨e, h1, fun h => h5 (by omega), fun h => hwk e (h4 (by omega)).1, fun h => ⟨(h4 (by omega)).2, ?_⟩, fun h => by omega⟩
    rw [weekdaysIn_eq (by omega)]; omega
  · rw [if_neg hn]
    obtain ⟨e, h1, h2, h3, h4, h5⟩ := addLoop_down (3 * n.natAbs) n.natAbs z (by constructor <;> omega)
    refine ⟨e, h1, fun h => by omega, fun h => hwk e (h4 (by omega)).1, fun h => by omega, fun h => ⟨(h4 (by omega)).2, ?_⟩⟩
    rw [weekdaysIn_eq (by omega)]; omega

example : addBusinessDays 1 1 = some 4 ∧ addBusinessDays 4 (-1) = some 1 := by decide

/-! ## C66: leap seconds -/

/-- To TAI and back, in seconds, for every second. -/
theorem C66_seconds (u : Int) : taiToUnixSeconds (unixToTaiSeconds u) = u := tai_unix u

/-- To TT and back, in nanoseconds, for every instant. -/
theorem C66_nanos (t : Int) : unixNanosFromTtNanos (ttNanosFromUnixNanos t) = t := by
  have h := tai_unix (t / nps)
  unfold unixNanosFromTtNanos ttNanosFromUnixNanos taiNanosFromUnixNanos
  simp only
  unfold unixToTaiSeconds at h
  rw [show (t + taiMinusUtc (t / nps) * nps + ttMinusTai - ttMinusTai) / nps = t / nps + taiMinusUtc (t / nps) by omega, h]
  omega

/-- Later instants have later TAI times, in nanoseconds and in seconds. -/
theorem C66_monotone :
    (∀ s t : Int, s < t → taiNanosFromUnixNanos s < taiNanosFromUnixNanos t) ∧
      ∀ u v : Int, u < v → unixToTaiSeconds u < unixToTaiSeconds v := by
  refine ⟨fun s t h => ?_, fun u v h => ?_⟩
  · unfold taiNanosFromUnixNanos
    have := tai_mono (show s / nps ≤ t / nps by omega); omega
  · unfold unixToTaiSeconds
    have := tai_mono (Int.le_of_lt h); omega

/-- The offset changes by one second at each entry of the table: 10 s before 1972-07-01, 37 s from 2017 on. -/
theorem C66_offset (u : Int) :
    (10 ≤ taiMinusUtc u ∧ taiMinusUtc u ≤ 37) ∧
    (u < daysFromCivil 1972 7 1 * 86400 → taiMinusUtc u = 10) ∧
    (daysFromCivil 2017 1 1 * 86400 ≤ u → taiMinusUtc u = 37) := by
  have lo : taiMinusUtc (daysFromCivil 1972 7 1 * 86400 - 1) = 10 := by decide +kernel
  have hi : taiMinusUtc (daysFromCivil 2017 1 1 * 86400) = 37 := by decide +kernel
  have hb := tai_bounds u
  have hmax : taiMinusUtc (max u (daysFromCivil 2017 1 1 * 86400)) = 37 := by
    have : ∀ v, daysFromCivil 2017 1 1 * 86400 ≤ v → taiMinusUtc v = 37 := by
      intro v hv
      have e : daysFromCivil 2017 1 1 * 86400 = 1483228800 := by decide
      rw [e] at hv
      unfold taiMinusUtc leapSeconds
      simp only [leapLoop]
      have c : ∀ y m d : Int, daysFromCivil y m d * 86400 ≤ 1483228800 → daysFromCivil y m d * 86400 ≤ v := fun _ _ _ h => by omega
      repeat rw [if_pos (c _ _ _ (by decide))]
    exact this _ (by omega)
  have hle := tai_mono (show u ≤ max u (daysFromCivil 2017 1 1 * 86400) by omega)
  refine ⟨⟨hb.1, by omega⟩, fun h => ?_, fun h => ?_⟩
  · have := tai_mono (show u ≤ daysFromCivil 1972 7 1 * 86400 - 1 by omega); omega
  · have := tai_mono h; omega

/-! ## C68: named zones -/

/-- Zones without daylight time have one offset. -/
theorem C68_fixed (t : Int) :
    Zone.utc.spec.toLocal t = civilFromUnixNanos t ∧
    Zone.phoenix.spec.toLocal t = civilFromUnixNanos (t - 7 * 3600 * nps) ∧
    Zone.kolkata.spec.toLocal t = civilFromUnixNanos (t + (5 * 3600 + 1800) * nps) ∧
    Zone.tokyo.spec.toLocal t = civilFromUnixNanos (t + 9 * 3600 * nps) ∧
    Zone.shanghai.spec.toLocal t = civilFromUnixNanos (t + 8 * 3600 * nps) := by
  simp only [Zone.spec, ZoneSpec.toLocal]
  refine ⟨?_, ?_, trivial, trivial, trivial⟩ <;> congr 1 <;> omega

/-- A North-American zone with standard offset `h` hours. -/
inductive NorthAmerican : Zone → Int → Prop
  | newYork : NorthAmerican .newYork (-5)
  | chicago : NorthAmerican .chicago (-6)
  | denver : NorthAmerican .denver (-7)
  | losAngeles : NorthAmerican .losAngeles (-8)

/-- North America, every year: one hour ahead of standard time from 2:00 standard time on the second Sunday of March
until 2:00 daylight time on the first Sunday of November. -/
theorem C68_north_america (z : Zone) (h : Int) (hz : NorthAmerican z h) (t y s e : Int)
    (hy : (civilFromUnixNanos t).year = y) (hs : NthSunday y 3 2 s) (he : NthSunday y 11 1 e) :
    z.spec.toLocal t = civilFromUnixNanos (t + (if daysFromCivil y 3 s * 86400 + (2 - h) * 3600 ≤ t / nps ∧
      t / nps < daysFromCivil y 11 e * 86400 + (2 - (h + 1)) * 3600 then h + 1 else h) * 3600 * nps) := by
  have hy' : (civilFromDays (t / npd)).1 = y := by rw [civil_eq] at hy; exact hy
  have es := nthSunday_eq (by omega) (by omega) hs
  have ee := nthSunday_eq (by omega) (by omega) he
  have hspec : z.spec = ⟨h * 3600, some ((h + 1) * 3600, usRules.1, usRules.2)⟩ ∧ -8 ≤ h ∧ h ≤ -5 := by
    cases hz <;> simp [Zone.spec]
  obtain ⟨hspec, hlo, hhi⟩ := hspec
  rw [hspec]
  rw [north _ (dst := (h + 1) * 3600) (s := usRules.1) (e := usRules.2) rfl (fun y => ?_) t, hy']
  · simp only [ruleAt, usRules, es, ee]
    congr 2
    split
    · rw [if_pos (by omega)]
    · rw [if_neg (by omega)]
  · have b1 := ruleAt_bounds y usRules.1 (h * 3600) (by decide) (by decide) (by decide)
    have b2 := ruleAt_bounds y usRules.2 ((h + 1) * 3600) (by decide) (by decide) (by decide)
    have hl := year_length y
    simp only [usRules] at *
    omega

example : NthSunday 2024 3 2 10 ∧ NthSunday 2024 11 1 3 ∧
    (civilFromUnixNanos (unixNanosFromCivil ⟨2024, 7, 4, 16, 0, 0, 0⟩)).year = 2024 ∧
    Zone.newYork.spec.toLocal (unixNanosFromCivil ⟨2024, 7, 4, 16, 0, 0, 0⟩) = ⟨2024, 7, 4, 12, 0, 0, 0⟩ := by
  unfold NthSunday ValidDate; decide +kernel

/-- A European zone with standard offset `h` hours. -/
inductive European : Zone → Int → Prop
  | london : European .london 0
  | paris : European .paris 1

/-- Europe, every year: one hour ahead of standard time from 1:00 UTC on the last Sunday of March until 1:00 UTC on
the last Sunday of October. -/
theorem C68_europe (z : Zone) (h : Int) (hz : European z h) (t y s e : Int)
    (hy : (civilFromUnixNanos t).year = y) (hs : LastSunday y 3 s) (he : LastSunday y 10 e) :
    z.spec.toLocal t = civilFromUnixNanos (t + (if daysFromCivil y 3 s * 86400 + 3600 ≤ t / nps ∧
      t / nps < daysFromCivil y 10 e * 86400 + 3600 then h + 1 else h) * 3600 * nps) := by
  have hy' : (civilFromDays (t / npd)).1 = y := by rw [civil_eq] at hy; exact hy
  have es := lastSunday_eq hs
  have ee := lastSunday_eq he
  have hspec : z.spec = ⟨h * 3600, some ((h + 1) * 3600, (euRules h).1, (euRules h).2)⟩ ∧ 0 ≤ h ∧ h ≤ 1 := by
    cases hz <;> simp [Zone.spec]
  obtain ⟨hspec, hlo, hhi⟩ := hspec
  rw [hspec]
  rw [north _ (dst := (h + 1) * 3600) (s := (euRules h).1) (e := (euRules h).2) rfl (fun y => ?_) t, hy']
  · simp only [ruleAt, euRules, es, ee]
    congr 2
    split
    · rw [if_pos (by omega)]
    · rw [if_neg (by omega)]
  · have b1 := ruleAt_bounds y (euRules h).1 (h * 3600) (by simp [euRules]) (by simp [euRules]) (by simp [euRules])
    have b2 := ruleAt_bounds y (euRules h).2 ((h + 1) * 3600) (by simp [euRules]) (by simp [euRules]) (by simp [euRules])
    have hl := year_length y
    simp only [euRules] at *
    omega

example : LastSunday 2024 3 31 ∧ LastSunday 2024 10 27 ∧
    Zone.paris.spec.toLocal (unixNanosFromCivil ⟨2024, 3, 31, 1, 0, 0, 0⟩) = ⟨2024, 3, 31, 3, 0, 0, 0⟩ := by
  unfold LastSunday ValidDate; decide +kernel

/-- Sydney, every year: standard time (UTC+10) from 3:00 daylight time on the first Sunday of April until 2:00
standard time on the first Sunday of October, daylight time (UTC+11) otherwise. -/
theorem C68_sydney (t y s e : Int) (hy : (civilFromUnixNanos t).year = y) (he : NthSunday y 4 1 e)
    (hs : NthSunday y 10 1 s) :
    Zone.sydney.spec.toLocal t = civilFromUnixNanos (t + (if daysFromCivil y 4 e * 86400 + (3 - 11) * 3600 ≤ t / nps ∧
      t / nps < daysFromCivil y 10 s * 86400 + (2 - 10) * 3600 then 10 else 11) * 3600 * nps) := by
  have hy' : (civilFromDays (t / npd)).1 = y := by rw [civil_eq] at hy; exact hy
  have es := nthSunday_eq (by omega) (by omega) hs
  have ee := nthSunday_eq (by omega) (by omega) he
  rw [south Zone.sydney.spec (dst := 11 * 3600) (s := ⟨10, 1, 0, 2 * 3600⟩) (e := ⟨4, 1, 0, 3 * 3600⟩) rfl (fun y => ?_) t, hy']
  · simp only [ruleAt, Zone.spec, es, ee]
    congr 2
    split
    · rw [if_pos (by omega)]
    · rw [if_neg (by omega)]
  · have b1 := ruleAt_bounds y ⟨10, 1, 0, 2 * 3600⟩ Zone.sydney.spec.std (by decide) (by decide) (by decide)
    have b2 := ruleAt_bounds y ⟨4, 1, 0, 3 * 3600⟩ (11 * 3600) (by decide) (by decide) (by decide)
    have hl := year_length y
    simp only [Zone.spec] at *
    omega

example : NthSunday 2024 4 1 7 ∧ NthSunday 2024 10 1 6 ∧
    Zone.sydney.spec.toLocal (unixNanosFromCivil ⟨2024, 1, 1, 1, 0, 0, 0⟩) = ⟨2024, 1, 1, 12, 0, 0, 0⟩ := by
  unfold NthSunday ValidDate; decide +kernel

end Verif.Props
