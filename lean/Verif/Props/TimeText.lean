import Verif.Time.RfcLemmas
/-! # C62, C63: durations and timestamps as text -/
namespace Verif.Props
open Verif.Time

/-! ## C62: durations -/

/-- Every 64-bit number of nanoseconds, written as a duration, is read back. -/
theorem C62_round_trip (n : Int) (h : InI64 n) : parseDuration (formatDuration n) = some (some n) := parse_format h

example : InI64 (-9223372036854775808) ∧
    formatDuration 93784500000000 = ['1', 'd', '2', 'h', '3', 'm', '4', '.', '5', 's'] := by
  exact ⟨by decide, by decide +kernel⟩

/-- Different durations are written differently. -/
theorem C62_injective (m n : Int) (hm : InI64 m) (hn : InI64 n) (h : formatDuration m = formatDuration n) : m = n := by
  have h1 := C62_round_trip m hm
  rw [h, C62_round_trip n hn] at h1
  simpa using h1.symm

/-- A read duration is a 64-bit number. -/
theorem C62_range (s : List Char) (n : Int) (h : parseDuration s = some (some n)) : InI64 n := by
  unfold parseDuration at h
  simp only at h
  split at h
  · cases h
  · split at h
    · cases h
    · cases h
    · simp only [Option.some.injEq] at h
      generalize (if (durSign s).1 = true then _ else _ : Int) = v at h
      by_cases hi : InI64 v
      · rw [if_pos hi, Option.some.injEq] at h; rw [← h]; exact hi
      · rw [if_neg hi] at h; cases h

/-- Reading is not total with overflow checks: `0.` followed by 39 zeros and `s` overflows a 128-bit power of ten. -/
theorem C62_long_fraction_panics_fails :
    parseDuration (['0', '.'] ++ List.replicate 39 '0' ++ ['s']) = none := by decide +kernel

/-! ## C63: RFC 3339 timestamps -/

/-- The texts accepted are exactly those of the form `YYYY-MM-DDTHH:MM:SS[.fraction](Z|±HH:MM)` whose date and time
exist, and the result is the instant they denote. -/
theorem C63_accepts (s : List Char) (t : Int) :
    parseRfc3339 s = some t ↔
      ∃ c off, Timestamp s c off ∧ ValidCivil c ∧ t = unixNanosFromCivil c - off * nps := by
  unfold parseRfc3339
  constructor
  · intro h
    obtain ⟨⟨c, off⟩, h1, h2⟩ := Option.map_eq_some_iff.1 h
    obtain ⟨h3, h4⟩ := parseCivil_sound h1
    exact ⟨c, off, h3, h4, h2.symm⟩
  · rintro ⟨c, off, h1, h2, rfl⟩
    rw [parseCivil_complete h1 h2]; rfl

/-- A timestamp with a fraction and an offset. -/
example : parseRfc3339 ['2', '0', '2', '4', '-', '0', '2', '-', '2', '9', 'T', '2', '3', ':', '5', '9', ':', '5', '9',
      '.', '5', '+', '0', '1', ':', '3', '0'] =
    some (unixNanosFromCivil ⟨2024, 2, 29, 22, 29, 59, 500000000⟩) := by decide +kernel

/-- Every instant between the years 0 and 9999 is read back from its text. -/
theorem C63_round_trip (t : Int) (h0 : 0 ≤ (civilFromUnixNanos t).year) (h1 : (civilFromUnixNanos t).year ≤ 9999) :
    parseRfc3339 (formatRfc3339 t) = some t :=
  (C63_accepts _ _).2 ⟨_, 0, format_timestamp (civil_nanos t).1 h0 h1, (civil_nanos t).1, by rw [(civil_nanos t).2]; omega⟩

/-- Every 64-bit instant is read back from its text; with the 64-bit arithmetic of a release build too. -/
theorem C63_round_trip_i64 (t : Int) (h : InI64 t) :
    parseRfc3339 (formatRfc3339 t) = some t ∧ parseRfc3339Wrapping (formatRfc3339 t) = some t := by
  have hy := year_i64 h
  refine ⟨C63_round_trip t (by omega) (by omega), ?_⟩
  unfold parseRfc3339Wrapping formatRfc3339
  rw [parseCivil_complete (format_timestamp (civil_nanos t).1 (by omega) (by omega)) (civil_nanos t).1]
  simp only [Option.map_some, Option.some.injEq]
  have hw : unixNanosWrapping (civilFromUnixNanos t) = t := by
    have h1 := (civil_nanos t).2
    unfold unixNanosFromCivil at h1
    unfold unixNanosWrapping
    rw [wrap64_add_wrap, wrap64_add_left, h1, wrap64_id h]
  rw [hw, show t - 0 * nps = t by omega, wrap64_id h]

example : InI64 9223372036854775807 ∧ (civilFromUnixNanos 9223372036854775807).year = 2262 := by decide +kernel

/-- A valid timestamp outside the 64-bit range is accepted by a release build with a wrapped, wrong instant
(and panics with overflow checks): the year 2300. -/
theorem C63_out_of_range_fails :
    parseRfc3339Wrapping ['2', '3', '0', '0', '-', '0', '1', '-', '0', '1', 'T', '0', '0', ':', '0', '0', ':', '0', '0', 'Z']
      = some (-8032952073709551616) ∧
    parseRfc3339Checked ['2', '3', '0', '0', '-', '0', '1', '-', '0', '1', 'T', '0', '0', ':', '0', '0', ':', '0', '0', 'Z']
      = none := by decide +kernel

end Verif.Props
