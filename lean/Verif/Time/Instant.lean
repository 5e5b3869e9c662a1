import Verif.Time.Calendar
import Verif.Common.Fixed
import Verif.Common.SortBy
/-! # Instants, zones, spans, business days and leap seconds of `logicaffeine_base::temporal`

Numbers are exact integers unless stated otherwise: `i64` overflow near the ends of the range is modelled only
for `unix_nanos_from_civil` (`unixNanosChecked`, `unixNanosWrapping`). -/
namespace Verif.Time

/-- `NANOS_PER_SECOND`, base/src/temporal.rs:218. -/
scoped notation "nps" => (1000000000 : Int)
/-- `NANOS_PER_DAY`, base/src/temporal.rs:222. -/
scoped notation "npd" => (86400000000000 : Int)

/-- `CivilDateTime`, base/src/temporal.rs:227-235. -/
structure Civil where
  year : Int
  month : Int
  day : Int
  hour : Int
  minute : Int
  second : Int
  nanosecond : Int
deriving DecidableEq, Repr

/-- `civil_from_unix_nanos`, base/src/temporal.rs:239-253. -/
def civilFromUnixNanos (ns : Int) : Civil :=
  let day := ns / npd
  let rem := ns % npd
  let ymd := civilFromDays day
  let secs := rem.tdiv nps
  { year := ymd.1, month := ymd.2.1, day := ymd.2.2, hour := secs.tdiv 3600, minute := (secs.tmod 3600).tdiv 60,
    second := secs.tmod 60, nanosecond := rem.tmod nps }

/-- `unix_nanos_from_civil`, base/src/temporal.rs:256-260, in exact arithmetic. -/
def unixNanosFromCivil (dt : Civil) : Int :=
  daysFromCivil dt.year dt.month dt.day * npd + (dt.hour * 3600 + dt.minute * 60 + dt.second) * nps + dt.nanosecond

/-- The same line with the overflow checks of a debug build on its multiplications and additions (the day number
and the seconds of the day are small and cannot overflow for the dates of 64-bit instants). -/
def unixNanosChecked (dt : Civil) : Option Int := do
  let a ← chk64 (daysFromCivil dt.year dt.month dt.day * npd)
  let b ← chk64 ((dt.hour * 3600 + dt.minute * 60 + dt.second) * nps)
  let c ← chk64 (a + b)
  chk64 (c + dt.nanosecond)

/-- The same line in a release build, where the operations wrap. -/
def unixNanosWrapping (dt : Civil) : Int :=
  wrap64 (wrap64 (wrap64 (daysFromCivil dt.year dt.month dt.day * npd)
    + wrap64 ((dt.hour * 3600 + dt.minute * 60 + dt.second) * nps)) + dt.nanosecond)

/-- `ZoneTransition`, base/src/temporal.rs:266-269: `(at_unix_seconds, offset_seconds)`. -/
structure Transition where
  at_ : Int
  offset : Int
deriving DecidableEq, Repr

/-- `Fold`, base/src/temporal.rs:276-279. -/
inductive Fold | earlier | later
deriving DecidableEq, Repr

/-- The loop of `offset_at`, base/src/temporal.rs:286-292. -/
def offsetLoop (secs : Int) (off : Int) : List Transition → Int
  | [] => off
  | t :: ts => if t.at_ ≤ secs then offsetLoop secs t.offset ts else off

/-- `offset_at`, base/src/temporal.rs:283-294. -/
def offsetAt (ts : List Transition) (base instant : Int) : Int := offsetLoop (instant / nps) base ts

/-- `to_local`, base/src/temporal.rs:297-300. -/
def toLocal (ts : List Transition) (base instant : Int) : Civil :=
  civilFromUnixNanos (instant + offsetAt ts base instant * nps)

/-- The distinct offsets of a zone in order of first use, base/src/temporal.rs:314-319. -/
def zoneOffsets (ts : List Transition) (base : Int) : List Int :=
  ts.foldl (fun l t => if t.offset ∈ l then l else l ++ [t.offset]) [base]

/-- `Vec::dedup` (on a sorted vector). -/
def dedup : List Int → List Int
  | [] => []
  | [x] => [x]
  | x :: y :: t => if x = y then dedup (y :: t) else x :: dedup (y :: t)

/-- The instants whose own offset produces the given local time, in order and without repetition,
base/src/temporal.rs:322-330. -/
def validInstants (ts : List Transition) (base localNs : Int) : List Int :=
  dedup (sortBy (fun a b => decide (a ≤ b))
    (((zoneOffsets ts base).filter (fun o => offsetAt ts base (localNs - o * nps) = o)).map
      (fun o => localNs - o * nps)))

/-- The candidates for a local time that does not occur, base/src/temporal.rs:342-343. -/
def gapInstants (ts : List Transition) (base localNs : Int) : List Int :=
  sortBy (fun a b => decide (a ≤ b)) ((zoneOffsets ts base).map (fun o => localNs - o * nps))

/-- `from_local`, base/src/temporal.rs:306-348; `[0]` and `last().unwrap()` of a non-empty vector are
`headD`/`getLastD`. -/
def fromLocal (ts : List Transition) (base : Int) (civil : Civil) (fold : Fold) : Int :=
  let localNs := unixNanosFromCivil civil
  let valid := validInstants ts base localNs
  if valid.length ≥ 2 then
    match fold with
    | .earlier => valid.headD 0
    | .later => valid.getLastD 0
  else if valid.length = 1 then valid.headD 0
  else
    let cands := gapInstants ts base localNs
    match fold with
    | .earlier => cands.headD 0
    | .later => cands.getLastD 0

/-- The `while day > last { day -= 7 }` loop of `nth_weekday_of_month`, base/src/temporal.rs:370-372.  Five rounds
suffice for the day numbers that arise (`week ≤ 5` gives a day of at most 35). -/
def backUp (last : Int) : Nat → Int → Int
  | 0, day => day
  | f + 1, day => if day > last then backUp last f (day - 7) else day

/-- `nth_weekday_of_month`, base/src/temporal.rs:364-374 (for `1 ≤ week ≤ 5`). -/
def nthWeekdayOfMonth (year month week weekday : Int) : Int :=
  let first := daysFromCivil year month 1
  let firstWeekday := weekdayFromDays first
  let toFirst := (weekday + 7 - firstWeekday) % 7
  backUp (lastDayOfMonth year month) 5 (1 + toFirst + (week - 1) * 7)

/-- `DstRule`, base/src/temporal.rs:355-360. -/
structure DstRule where
  month : Int
  week : Int
  weekday : Int
  timeSeconds : Int
deriving DecidableEq, Repr

/-- The closure `transition`, base/src/temporal.rs:388-392. -/
def dstTransition (year : Int) (r : DstRule) (pre new : Int) : Transition :=
  let day := nthWeekdayOfMonth year r.month r.week r.weekday
  ⟨daysFromCivil year r.month day * 86400 + r.timeSeconds - pre, new⟩

/-- `dst_transitions_for_year`, base/src/temporal.rs:379-397. -/
def dstTransitionsForYear (std dst : Int) (start end_ : DstRule) (year : Int) : List Transition :=
  [dstTransition year start std dst, dstTransition year end_ dst std]

/-- `ZoneSpec`, base/src/temporal.rs:403-407, without the name. -/
structure ZoneSpec where
  std : Int
  dst : Option (Int × DstRule × DstRule)
deriving DecidableEq, Repr

/-- `ZoneSpec::transitions`, base/src/temporal.rs:412-422; `n` is the number of years from `start` on.  The sort
is stable, as `sort_by_key` is. -/
def ZoneSpec.transitions (z : ZoneSpec) (start : Int) (n : Nat) : List Transition :=
  match z.dst with
  | none => []
  | some (dst, s, e) =>
    sortBy (fun a b => a.at_ ≤ b.at_)
      ((List.range n).flatMap (fun (i : Nat) => dstTransitionsForYear z.std dst s e (start + i)))

/-- `ZoneSpec::to_local`, base/src/temporal.rs:425-434. -/
def ZoneSpec.toLocal (z : ZoneSpec) (instant : Int) : Civil :=
  match z.dst with
  | none => civilFromUnixNanos (instant + z.std * nps)
  | some _ =>
    let year := (civilFromDays (instant / npd)).1
    Time.toLocal (z.transitions (year - 1) 3) z.std instant

/-- The North-American rules of `zone_by_name`, base/src/temporal.rs:471-474. -/
def usRules : DstRule × DstRule := (⟨3, 2, 0, 2 * 3600⟩, ⟨11, 1, 0, 2 * 3600⟩)
/-- The European rules of `zone_by_name`, base/src/temporal.rs:476-481. -/
def euRules (stdH : Int) : DstRule × DstRule := (⟨3, 5, 0, (stdH + 1) * 3600⟩, ⟨10, 5, 0, (stdH + 2) * 3600⟩)

/-- The registry of `zone_by_name`, base/src/temporal.rs:469-511, by zone (the names and aliases are left out). -/
inductive Zone
  | utc | newYork | chicago | denver | losAngeles | phoenix | london | paris | kolkata | tokyo | shanghai | sydney
deriving DecidableEq, Repr

/-- The specification of each zone, base/src/temporal.rs:483-508. -/
def Zone.spec : Zone → ZoneSpec
  | .utc => ⟨0, none⟩
  | .newYork => ⟨-5 * 3600, some (-4 * 3600, usRules.1, usRules.2)⟩
  | .chicago => ⟨-6 * 3600, some (-5 * 3600, usRules.1, usRules.2)⟩
  | .denver => ⟨-7 * 3600, some (-6 * 3600, usRules.1, usRules.2)⟩
  | .losAngeles => ⟨-8 * 3600, some (-7 * 3600, usRules.1, usRules.2)⟩
  | .phoenix => ⟨-7 * 3600, none⟩
  | .london => ⟨0, some (3600, (euRules 0).1, (euRules 0).2)⟩
  | .paris => ⟨3600, some (2 * 3600, (euRules 1).1, (euRules 1).2)⟩
  | .kolkata => ⟨5 * 3600 + 1800, none⟩
  | .tokyo => ⟨9 * 3600, none⟩
  | .shanghai => ⟨8 * 3600, none⟩
  | .sydney => ⟨10 * 3600, some (11 * 3600, ⟨10, 1, 0, 2 * 3600⟩, ⟨4, 1, 0, 3 * 3600⟩)⟩

/-- `add_span`, base/src/temporal.rs:518-526. -/
def addSpan (dt : Civil) (months days : Int) : Civil :=
  let total := (dt.year * 12 + (dt.month - 1)) + months
  let newYear := total / 12
  let newMonth := total % 12 + 1
  let clampedDay := min dt.day (lastDayOfMonth newYear newMonth)
  let z := daysFromCivil newYear newMonth clampedDay + days
  let ymd := civilFromDays z
  { dt with year := ymd.1, month := ymd.2.1, day := ymd.2.2 }

/-- The body of `months_between` for ordered arguments, base/src/temporal.rs:536-544. -/
def monthsForward (a b : Int) : Int :=
  let ca := civilFromUnixNanos a
  let cb := civilFromUnixNanos b
  let months := (cb.year - ca.year) * 12 + (cb.month - ca.month)
  if unixNanosFromCivil (addSpan ca months 0) > b then months - 1 else months

/-- `months_between`, base/src/temporal.rs:532-545. -/
def monthsBetween (a b : Int) : Int := if b < a then -monthsForward b a else monthsForward a b

/-- `years_between`, base/src/temporal.rs:549-551. -/
def yearsBetween (a b : Int) : Int := (monthsBetween a b).tdiv 12

/-- `is_weekend`, base/src/temporal.rs:554-556. -/
def isWeekend (z : Int) : Bool := weekdayFromDays z = 0 || weekdayFromDays z = 6

/-- The loop of `business_days_between`, base/src/temporal.rs:568-574, over the at most six days left. -/
def restLoop (hi : Int) : Nat → Int → Int → Int
  | 0, _, count => count
  | f + 1, d, count => if d < hi then restLoop hi f (d + 1) (if isWeekend d then count else count + 1) else count

/-- `business_days_between`, base/src/temporal.rs:560-576. -/
def businessDaysBetween (a b : Int) : Int :=
  if a = b then 0 else
    let lhs : Int × Int × Int := if a < b then (a, b, 1) else (b, a, -1)
    let span := lhs.2.1 - lhs.1
    let fullWeeks := span.tdiv 7
    lhs.2.2 * restLoop lhs.2.1 7 (lhs.1 + fullWeeks * 7) (fullWeeks * 5)

/-- The loop of `add_business_days`, base/src/temporal.rs:586-591; `none` would be running out of fuel. -/
def addLoop (step : Int) : Nat → Int → Nat → Option Int
  | _, d, 0 => some d
  | 0, _, _ + 1 => none
  | f + 1, d, r + 1 => if isWeekend (d + step) then addLoop step f (d + step) (r + 1) else addLoop step f (d + step) r

/-- `add_business_days`, base/src/temporal.rs:582-593; three days per business day are always enough. -/
def addBusinessDays (z n : Int) : Option Int :=
  addLoop (if n ≥ 0 then 1 else -1) (3 * n.natAbs) z n.natAbs

/-- `LEAP_SECONDS`, base/src/temporal.rs:21-28. -/
def leapSeconds : List (Int × Int × Int × Int) := [
  (1972, 1, 1, 10), (1972, 7, 1, 11), (1973, 1, 1, 12), (1974, 1, 1, 13), (1975, 1, 1, 14),
  (1976, 1, 1, 15), (1977, 1, 1, 16), (1978, 1, 1, 17), (1979, 1, 1, 18), (1980, 1, 1, 19),
  (1981, 7, 1, 20), (1982, 7, 1, 21), (1983, 7, 1, 22), (1985, 7, 1, 23), (1988, 1, 1, 24),
  (1990, 1, 1, 25), (1991, 1, 1, 26), (1992, 7, 1, 27), (1993, 7, 1, 28), (1994, 7, 1, 29),
  (1996, 1, 1, 30), (1997, 7, 1, 31), (1999, 1, 1, 32), (2006, 1, 1, 33), (2009, 1, 1, 34),
  (2012, 7, 1, 35), (2015, 7, 1, 36), (2017, 1, 1, 37)]

/-- The loop of `tai_minus_utc`, base/src/temporal.rs:37-44. -/
def leapLoop (unix : Int) (off : Int) : List (Int × Int × Int × Int) → Int
  | [] => off
  | e :: t => if daysFromCivil e.1 e.2.1 e.2.2.1 * 86400 ≤ unix then leapLoop unix e.2.2.2 t else off

/-- `tai_minus_utc`, base/src/temporal.rs:35-46. -/
def taiMinusUtc (unix : Int) : Int := leapLoop unix 10 leapSeconds

/-- `tai_nanos_from_unix_nanos`, base/src/temporal.rs:49-52. -/
def taiNanosFromUnixNanos (ns : Int) : Int := ns + taiMinusUtc (ns / nps) * nps

/-- `TT_MINUS_TAI_NANOS`, base/src/temporal.rs:31. -/
scoped notation "ttMinusTai" => (32184000000 : Int)

/-- `tt_nanos_from_unix_nanos`, base/src/temporal.rs:56-58. -/
def ttNanosFromUnixNanos (ns : Int) : Int := taiNanosFromUnixNanos ns + ttMinusTai

/-- `unix_to_tai_seconds`, base/src/temporal.rs:69-71. -/
def unixToTaiSeconds (u : Int) : Int := u + taiMinusUtc u

/-- `tai_to_unix_seconds`, base/src/temporal.rs:75-81: the first guess and two corrections. -/
def taiToUnixSeconds (tai : Int) : Int :=
  let u0 := tai - taiMinusUtc tai
  let u1 := tai - taiMinusUtc u0
  tai - taiMinusUtc u1

/-- `unix_nanos_from_tt_nanos`, base/src/temporal.rs:61-66. -/
def unixNanosFromTtNanos (tt : Int) : Int :=
  let tai := tt - ttMinusTai
  let u := taiToUnixSeconds (tai / nps)
  tai - taiMinusUtc u * nps

end Verif.Time
