import Mathlib.Algebra.Order.Group.Unbundled.Int
/-! # What the calendars are: an independent specification

Dates are triples year, month, day.  The Gregorian and the Julian calendar are given by their leap-year rule,
the lengths of the months and the successor of a date; nothing here refers to the code. -/
namespace Verif.Time

/-- A year of the Gregorian calendar is leap when 4 divides it, except centuries not divisible by 400. -/
def GregorianLeap (y : Int) : Prop := 4 ∣ y ∧ (100 ∣ y → 400 ∣ y)

instance (y : Int) : Decidable (GregorianLeap y) := by unfold GregorianLeap; infer_instance

/-- A year of the Julian calendar is leap when 4 divides it. -/
def JulianLeap (y : Int) : Prop := 4 ∣ y

instance (y : Int) : Decidable (JulianLeap y) := by unfold JulianLeap; infer_instance

/-- The length of a month: thirty days hath September, April, June and November; `leap` says which years give
February a 29th day. -/
def monthLength (leap : Int → Prop) [DecidablePred leap] (y m : Int) : Int :=
  if m = 2 then (if leap y then 29 else 28)
  else if m = 9 ∨ m = 4 ∨ m = 6 ∨ m = 11 then 30 else 31

/-- The dates of a calendar. -/
def ValidDate (leap : Int → Prop) [DecidablePred leap] (d : Int × Int × Int) : Prop :=
  1 ≤ d.2.1 ∧ d.2.1 ≤ 12 ∧ 1 ≤ d.2.2 ∧ d.2.2 ≤ monthLength leap d.1 d.2.1

/-- The day after. -/
def nextDate (leap : Int → Prop) [DecidablePred leap] (d : Int × Int × Int) : Int × Int × Int :=
  if d.2.2 < monthLength leap d.1 d.2.1 then (d.1, d.2.1, d.2.2 + 1)
  else if d.2.1 < 12 then (d.1, d.2.1 + 1, 1)
  else (d.1 + 1, 1, 1)

/-- Earlier than, for dates: by year, then month, then day. -/
def DateLt (a b : Int × Int × Int) : Prop :=
  a.1 < b.1 ∨ (a.1 = b.1 ∧ (a.2.1 < b.2.1 ∨ (a.2.1 = b.2.1 ∧ a.2.2 < b.2.2)))

end Verif.Time
