import Mathlib.Data.List.Basic

/-! # One-based indexing: data/src/indexing.rs

An `i64` index is an integer (the theorems ask for the range where it matters), a text is its list
of code points, `none` is a panic. -/
namespace Verif.Data

/-- `resolve_logos_index`, data/src/indexing.rs:73-89. -/
def resolveIndex (index : Int) (len : Nat) : Option Nat :=
  if index ≥ 1 then
    let idx := (index - 1).toNat
    if idx ≥ len then none else some idx
  else if index ≤ -1 then
    let back := index.natAbs
    if back > len then none else some (len - back)
  else none

/-- `logos_get` of vectors, slices and sequences, data/src/indexing.rs:97-100, 117-120, 222-225.
(`get_unchecked` past the end would be undefined; it is `none` here, and never happens.) -/
def seqGet {A : Type} (v : List A) (index : Int) : Option A :=
  match resolveIndex index v.length with
  | none => none
  | some i => v[i]?

/-- `logos_set`, data/src/indexing.rs:105-108, 125-128, 230-233. -/
def seqSet {A : Type} (v : List A) (index : Int) (x : A) : Option (List A) :=
  match resolveIndex index v.length with
  | none => none
  | some i => if i < v.length then some (v.set i x) else none

/-- The UTF-8 bytes of a code point (`String::as_bytes` holds those of each `char` in turn). -/
def utf8Bytes (c : Nat) : List Nat :=
  if c < 128 then [c]
  else if c < 2048 then [192 + c / 64, 128 + c % 64]
  else if c < 65536 then [224 + c / 4096, 128 + c / 64 % 64, 128 + c % 64]
  else [240 + c / 262144, 128 + c / 4096 % 64, 128 + c / 64 % 64, 128 + c % 64]

/-- `s.as_bytes()`. -/
def textBytes (s : List Nat) : List Nat := s.flatMap utf8Bytes

/-- The zero-based position used, data/src/indexing.rs:160-164, 196-200. -/
def textPos (s : List Nat) (index : Int) : Option Nat :=
  if index ≥ 1 then some (index - 1).toNat else resolveIndex index s.length

/-- The lookup at that position, data/src/indexing.rs:165-177, 201-210: the byte there if it is
ASCII, else the `idx`-th character. -/
def textAt (s : List Nat) (idx : Nat) : Option Nat :=
  match (textBytes s)[idx]? with
  | some b => if b < 128 then some b else s[idx]?
  | none => s[idx]?

/-- `String::logos_get` and `logos_get_char`, data/src/indexing.rs:158-179, 194-212. -/
def textGet (s : List Nat) (index : Int) : Option Nat :=
  match textPos s index with
  | none => none
  | some idx => textAt s idx

end Verif.Data
