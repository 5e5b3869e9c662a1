import Verif.Lsp.LineIndexLemmas

/-!
# C103: editor positions and byte offsets denote the same places

Specification: a place in a text is a way of cutting it in two, `pre ++ suf`.  Its byte offset is
the UTF-8 length of `pre`; its line is the number of `\n` in `pre`, and its character the UTF-16
length of what follows the last of them.
-/
namespace Verif.Props
open Verif.Lsp

/-- What follows the last `\n`. -/
def lastLine (pre : List Char) : List Char := (pre.reverse.takeWhile (· ≠ '\n')).reverse

/-- The property in full: conversion never panics, the position of a place is its line and character,
the offset of its position is the place, and a character beyond the end of a line means the end of
that line. -/
def PositionsRight : Prop :=
  (∀ cs b, position cs b ≠ none) ∧
  (∀ pre suf, position (pre ++ suf) (blen pre) = some (pre.count '\n', ulen (lastLine pre))) ∧
  (∀ pre suf, offset (pre ++ suf) (pre.count '\n') (ulen (lastLine pre)) = some (blen pre)) ∧
  (∀ pre suf ch, suf.head? = some '\n' → ulen (lastLine pre) ≤ ch →
    offset (pre ++ suf) (pre.count '\n') ch = some (blen pre))

theorem lastLine_split (pre : List Char) : ∃ l, pre = l ++ lastLine pre ∧
    (l = [] ∨ l.getLast? = some '\n') ∧ '\n' ∉ lastLine pre := by
  refine ⟨(pre.reverse.dropWhile (· ≠ '\n')).reverse, ?_, ?_, ?_⟩
  · unfold lastLine
    rw [← List.reverse_append, List.takeWhile_append_dropWhile, List.reverse_reverse]
  · cases h : pre.reverse.dropWhile (· ≠ '\n') with
    | nil => exact .inl rfl
    | cons c cs =>
      right
      have := List.head?_dropWhile_not (fun x => decide (x ≠ '\n')) pre.reverse
      rw [h] at this
      simp only [List.head?_cons, Bool.not_eq_true] at this
      simpa using this
  · unfold lastLine
    intro h
    have := List.all_takeWhile (p := fun x => decide (x ≠ '\n')) (l := pre.reverse)
    rw [List.all_eq_true] at this
    simpa using this _ (List.mem_reverse.1 h)

/-- **C103, offset to position.**  For every text and every place in it, `position` returns the
number of `\n` before the place and the UTF-16 length of what follows the last of them. -/
theorem C103_position (pre suf : List Char) :
    position (pre ++ suf) (blen pre) = some (pre.count '\n', ulen (lastLine pre)) := by
  obtain ⟨l, hpre, hl, hn⟩ := lastLine_split pre
  have hmin : min (blen pre) (blen (pre ++ suf)) = blen pre := by rw [blen_append]; omega
  unfold position
  simp only [hmin, startsUpTo_append, Nat.add_sub_cancel]
  have hs := lineStart_append l (lastLine pre) suf hl hn
  rw [← hpre] at hs
  rw [hs]
  have := slice_append l (lastLine pre) suf
  rw [← hpre] at this
  simp only [this, Option.map_some]

/-- Offsets beyond the end mean the end. -/
theorem C103_position_beyond (cs : List Char) (b : Nat) (h : blen cs ≤ b) :
    position cs b = position cs (blen cs) := by
  unfold position
  rw [Nat.min_eq_right h, Nat.min_self]

/-- **C103, when `position` panics.**  Exactly for offsets inside a character. -/
theorem C103_position_defined (cs : List Char) (b : Nat) :
    position cs b ≠ none ↔ blen cs ≤ b ∨ ∃ pre suf, cs = pre ++ suf ∧ b = blen pre := by
  constructor
  · intro h
    by_cases hb : blen cs ≤ b
    · exact .inl hb
    · right
      unfold position at h
      rw [Nat.min_eq_left (by omega)] at h
      simp only at h
      split at h
      · exact absurd rfl h
      · rename_i start _
        cases hs : slice cs start b with
        | none => rw [hs] at h; exact absurd rfl h
        | some x =>
          obtain ⟨p, q, h1, _, h2⟩ := slice_some hs
          exact ⟨p ++ x, q, h1, h2⟩
  · rintro (h | ⟨pre, suf, rfl, rfl⟩)
    · rw [C103_position_beyond cs b h]
      have := C103_position cs []
      rw [List.append_nil] at this
      rw [this]; simp
    · rw [C103_position]; simp

/-- **C103, position to offset.**  For every text and every place in it, `offset` takes the line and
character of the place back to it. -/
theorem C103_offset (pre suf : List Char) :
    offset (pre ++ suf) (pre.count '\n') (ulen (lastLine pre)) = some (blen pre) := by
  obtain ⟨l, hpre, hl, hn⟩ := lastLine_split pre
  have hc : pre.count '\n' = l.count '\n' := by
    conv => lhs; rw [hpre]
    rw [List.count_append, List.count_eq_zero_of_not_mem hn, Nat.add_zero]
  have := offset_at l (lastLine pre) suf hl hn
  rw [← hpre] at this
  rw [hc]
  exact this

/-- **C103, round trip.**  Whenever `position` answers, `offset` takes the answer back. -/
theorem C103_round_trip (cs : List Char) (b line ch : Nat) (h : position cs b = some (line, ch)) :
    offset cs line ch = some (min b (blen cs)) := by
  rcases (C103_position_defined cs b).1 (by rw [h]; simp) with hb | ⟨pre, suf, rfl, rfl⟩
  · rw [C103_position_beyond cs b hb] at h
    have h1 := C103_position cs []
    have h2 := C103_offset cs []
    rw [List.append_nil] at h1 h2
    rw [h1] at h
    cases h
    rw [h2, Nat.min_eq_right hb]
  · rw [C103_position] at h
    cases h
    rw [C103_offset, blen_append]
    congr 1; omega

/-- **C103, `offset` never panics and returns a place.**  For every text, line and character, also
ones that do not exist. -/
theorem C103_offset_place (cs : List Char) (line ch : Nat) :
    ∃ pre suf, cs = pre ++ suf ∧ offset cs line ch = some (blen pre) := by
  by_cases h : line ≤ cs.count '\n'
  · obtain ⟨l, r, rfl, rfl, hl⟩ := split_line cs line h
    obtain ⟨text, rest, rfl, _, ho⟩ := offset_line l r hl ch
    rw [ho]
    cases hs : scan ch 0 0 text with
    | none => exact ⟨l ++ text, rest, by simp, rfl⟩
    | some i =>
      obtain ⟨a, b, rfl, rfl⟩ := scan_prefix ch text 0 0 i hs
      exact ⟨l ++ a, b ++ rest, by simp, by simp [blen_append]⟩
  · refine ⟨cs, [], by simp, ?_⟩
    have : (lineStarts cs)[line]? = none := by
      rw [List.getElem?_eq_none_iff]
      simp only [lineStarts, List.length_cons, startsFrom_length]; omega
    simp [offset, this]

/-- **C103 (partial), beyond the end of a line.**  On the last line a character beyond the end means
the end.  Missing: on the other lines it means the start of the next line (`C103_clamp_fails`). -/
theorem C103_clamp_partial (pre : List Char) (ch : Nat) (h : ulen (lastLine pre) ≤ ch) :
    offset pre (pre.count '\n') ch = some (blen pre) := by
  obtain ⟨l, hpre, hl, hn⟩ := lastLine_split pre
  have hc : pre.count '\n' = l.count '\n' := by
    conv => lhs; rw [hpre]
    rw [List.count_append, List.count_eq_zero_of_not_mem hn, Nat.add_zero]
  obtain ⟨text, rest, h1, h2, ho⟩ := offset_line l (lastLine pre) hl ch
  rw [← hpre] at ho
  rw [hc, ho]
  rcases h2 with ⟨_, rfl⟩ | ⟨t, rfl, _⟩
  · rw [List.append_nil] at h1
    rw [← h1] at ho ⊢
    have := scan_append ch (lastLine pre) [] 0 0 (by omega) (fun c _ => units_pos c)
    rw [List.append_nil] at this
    rw [this, ← hpre]
    rfl
  · exact absurd (by rw [h1]; simp) hn

/-- The length of a range is the UTF-16 length of its text. -/
theorem C103_utf16_length (a b c : List Char) :
    utf16Length (a ++ b ++ c) (blen a) (blen (a ++ b)) = some (ulen b) := by
  have h1 : min (blen a) (blen (a ++ b ++ c)) = blen a := by simp only [blen_append]; omega
  have h2 : min (blen (a ++ b)) (blen (a ++ b ++ c)) = blen (a ++ b) := by
    simp only [blen_append]; omega
  unfold utf16Length
  simp only [h1, h2]
  split
  · rename_i h
    cases b with
    | nil => rfl
    | cons x b =>
      have := Char.utf8Size_pos x
      simp only [blen_append, blen] at h
      omega
  · rw [slice_append]; rfl

/-- The start of a line. -/
theorem C103_line_start (l r : List Char) (hl : l = [] ∨ l.getLast? = some '\n') :
    lineStartOffset (l ++ r) (l.count '\n') = blen l := by
  have := lineStart_append l [] r hl (by simp)
  simp only [List.append_nil] at this
  simp [lineStartOffset, this]

/-! ## A concrete case: `é\na𝔸b` -/

/-- `é`, `\n`, `a`, `𝔸`. -/
def sampleText : List Char := [Char.ofNat 233, '\n', 'a', Char.ofNat 120120]

example : position (sampleText ++ ['b']) 8 = some (1, 3) ∧ blen sampleText = 8 ∧
    (sampleText.count '\n', ulen (lastLine sampleText)) = (1, 3) ∧
    offset (sampleText ++ ['b']) 1 3 = some 8 ∧ offset (sampleText ++ ['b']) 1 9 = some 9 := by
  decide +kernel

/-! ## Where it fails -/

/-- **C103 fails.**  `position` panics on an offset inside a character: `é`, offset 1. -/
theorem C103_inside_character_fails : position [Char.ofNat 233] 1 = none := by decide +kernel

/-- **C103 fails.**  Beyond the end of a line that is not the last, `offset` returns the start of the
next line: in `abc\ndef`, line 0, character 10 is offset 4, which is line 1, character 0. -/
theorem C103_clamp_fails :
    offset ['a', 'b', 'c', '\n', 'd', 'e', 'f'] 0 10 = some 4 ∧
      position ['a', 'b', 'c', '\n', 'd', 'e', 'f'] 4 = some (1, 0) := by
  decide +kernel

/-- **C103 fails.**  The protocol also ends a line at a `\r` that no `\n` follows; there, in `a\rb`,
line 1 begins at offset 2.  `offset` knows no line 1 and answers with the end of the text. -/
theorem C103_carriage_return_fails :
    offset ['a', '\r', 'b'] 1 0 = some 3 ∧ position ['a', '\r', 'b'] 2 = some (0, 2) := by
  decide +kernel

/-- The property in full is false. -/
theorem C103_full_fails : ¬ PositionsRight := by
  intro h
  exact h.1 _ _ C103_inside_character_fails

end Verif.Props
