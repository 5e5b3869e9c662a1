import Verif.Time.Instant
import Verif.Time.DurText
/-! # RFC 3339 timestamps: `format_rfc3339` and `parse_rfc3339`

Text is its list of bytes, a byte written as the `Char` of that code. -/
namespace Verif.Time

/-- `{:04}` on an `i64`: the sign counts towards the width. -/
def pad4 (y : Int) : List Char := if y < 0 then '-' :: decPad 3 y.natAbs else decPad 4 y.natAbs

/-- `format_rfc3339`, base/src/temporal.rs:733-749, from the civil date-time. -/
def formatCivil (c : Civil) : List Char :=
  pad4 c.year ++ '-' :: decPad 2 c.month.natAbs ++ '-' :: decPad 2 c.day.natAbs ++ 'T' :: decPad 2 c.hour.natAbs
    ++ ':' :: decPad 2 c.minute.natAbs ++ ':' :: decPad 2 c.second.natAbs
    ++ (if c.nanosecond ≠ 0 then '.' :: fracStr c.nanosecond.natAbs 9 else []) ++ ['Z']

/-- `format_rfc3339`, base/src/temporal.rs:733-749. -/
def formatRfc3339 (instant : Int) : List Char := formatCivil (civilFromUnixNanos instant)

/-- The closure `digits`, base/src/temporal.rs:779-789: the number written at `start` in exactly `len` digits. -/
def digitsAt (b : List Char) (start len : Nat) : Option Nat :=
  let seg := (b.drop start).take len
  if seg.length = len ∧ allDigits seg = true then some (digitsVal seg) else none

/-- The optional fraction at position 19, base/src/temporal.rs:806-828: nanoseconds and the rest of the text;
`none` for a point without digits. -/
def parseFrac : List Char → Option (Nat × List Char)
  | '.' :: t =>
    let ds := t.takeWhile Char.isDigit
    if ds = [] then none
    else some (digitsVal (ds.take 9) * 10 ^ (9 - (ds.take 9).length), t.dropWhile Char.isDigit)
  | t => some (0, t)

/-- A numeric offset `HH:MM` with nothing after it, base/src/temporal.rs:837-847 and 851-853. -/
def parseOffset (sign : Int) (t : List Char) : Option Int :=
  match digitsAt t 0 2, t[2]?, digitsAt t 3 2 with
  | some oh, some ':', some om =>
    if oh > 23 ∨ om > 59 then none
    else if t.length ≠ 5 then none
    else some (sign * (oh * 3600 + om * 60))
  | _, _, _ => none

/-- The zone at the end, base/src/temporal.rs:830-853. -/
def parseZone : List Char → Option Int
  | ['Z'] => some 0
  | '+' :: t => parseOffset 1 t
  | '-' :: t => parseOffset (-1) t
  | _ => none

/-- `parse_rfc3339` up to the last line, base/src/temporal.rs:773-854: the civil date-time and the offset. -/
def parseCivil (b : List Char) : Option (Civil × Int) :=
  if b.length < 20 then none
  else if b[4]? ≠ some '-' ∨ b[7]? ≠ some '-' ∨ b[10]? ≠ some 'T' ∨ b[13]? ≠ some ':' ∨ b[16]? ≠ some ':' then none
  else do
    let year ← digitsAt b 0 4
    let month ← digitsAt b 5 2
    let day ← digitsAt b 8 2
    let hour ← digitsAt b 11 2
    let minute ← digitsAt b 14 2
    let second ← digitsAt b 17 2
    if ¬ (1 ≤ month ∧ month ≤ 12) ∨ ¬ (1 ≤ day ∧ (day : Int) ≤ lastDayOfMonth year month) then none
    else if hour > 23 ∨ minute > 59 ∨ second > 59 then none
    else do
      let fr ← parseFrac (b.drop 19)
      let off ← parseZone fr.2
      some (⟨year, month, day, hour, minute, second, fr.1⟩, off)

/-- `parse_rfc3339`, base/src/temporal.rs:773-855, in exact arithmetic. -/
def parseRfc3339 (b : List Char) : Option Int :=
  (parseCivil b).map (fun p => unixNanosFromCivil p.1 - p.2 * nps)

/-- The last line in a release build (64-bit wrap-around). -/
def parseRfc3339Wrapping (b : List Char) : Option Int :=
  (parseCivil b).map (fun p => wrap64 (unixNanosWrapping p.1 - p.2 * nps))

/-- The last line with overflow checks; the outer `none` is the panic. -/
def parseRfc3339Checked (b : List Char) : Option (Option Int) :=
  match parseCivil b with
  | none => some none
  | some p => ((unixNanosChecked p.1).bind (fun a => chk64 (a - p.2 * nps))).map some

/-- `format_time_of_day`, base/src/temporal.rs:755-769. -/
def formatTimeOfDay (n : Int) : List Char :=
  let rem := n % npd
  let secs := rem / nps
  let nanos := rem % nps
  decPad 2 (secs / 3600).natAbs ++ ':' :: decPad 2 (secs % 3600 / 60).natAbs ++ ':' :: decPad 2 (secs % 60).natAbs
    ++ (if nanos ≠ 0 then '.' :: fracStr nanos.natAbs 9 else [])

/-! ## The grammar, as specification -/

/-- `l` writes the number `n` in exactly `k` decimal digits. -/
def Numeral (k : Nat) (l : List Char) (n : Int) : Prop :=
  l.length = k ∧ (∀ c ∈ l, c.isDigit = true) ∧ (digitsVal l : Int) = n

/-- An optional fraction of a second, in nanoseconds, later digits ignored. -/
def FracText (l : List Char) (n : Int) : Prop :=
  (l = [] ∧ n = 0) ∨ ∃ ds, ds ≠ [] ∧ (∀ c ∈ ds, c.isDigit = true) ∧ l = '.' :: ds ∧
    n = digitsVal ((ds ++ List.replicate 9 '0').take 9)

/-- `Z` or a numeric offset of less than a day. -/
def ZoneText (l : List Char) (off : Int) : Prop :=
  (l = ['Z'] ∧ off = 0) ∨ ∃ h m hh mm, Numeral 2 h hh ∧ Numeral 2 m mm ∧ hh ≤ 23 ∧ mm ≤ 59 ∧
    ((l = '+' :: h ++ ':' :: m ∧ off = hh * 3600 + mm * 60) ∨ (l = '-' :: h ++ ':' :: m ∧ off = -(hh * 3600 + mm * 60)))

/-- The texts `YYYY-MM-DDTHH:MM:SS[.fraction](Z|±HH:MM)`. -/
def Timestamp (s : List Char) (c : Civil) (off : Int) : Prop :=
  ∃ Y M D h m sec f z, Numeral 4 Y c.year ∧ Numeral 2 M c.month ∧ Numeral 2 D c.day ∧ Numeral 2 h c.hour ∧
    Numeral 2 m c.minute ∧ Numeral 2 sec c.second ∧ FracText f c.nanosecond ∧ ZoneText z off ∧
    s = Y ++ '-' :: M ++ '-' :: D ++ 'T' :: h ++ ':' :: m ++ ':' :: sec ++ f ++ z

end Verif.Time
