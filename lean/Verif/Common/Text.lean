import Verif.Common.Decimal
/-! # Text primitives of the standard library used by the parsers: `str::trim`, `str::split_once`, signs -/
namespace Verif

/-- `str::trim`; `ws` is the Unicode whitespace predicate, left abstract. -/
def trim (ws : Char → Bool) (s : List Char) : List Char := ((s.dropWhile ws).reverse.dropWhile ws).reverse

/-- `str::split_once(c)` for a single character. -/
def splitOnce (c : Char) : List Char → Option (List Char × List Char)
  | [] => none
  | x :: t => if x = c then some ([], t) else (splitOnce c t).map (fun p => (x :: p.1, p.2))

/-- A number with sign as `{}` prints it: `-` and the digits of the magnitude. -/
def showInt (n : Int) : List Char := (if n < 0 then ['-'] else []) ++ dec n.natAbs

/-- The optional leading sign of a number. -/
def signOf : List Char → Bool × List Char
  | '-' :: t => (true, t)
  | '+' :: t => (false, t)
  | s => (false, s)

/-- `BigInt::parse_decimal` on values (see `C45_parse_int`). -/
def parseInt (s : List Char) : Option Int :=
  let nd := signOf s
  if nd.2 = [] ∨ ¬ allDigits nd.2 then none
  else some (if nd.1 then -(digitsVal nd.2 : Int) else digitsVal nd.2)

theorem trim_id {ws : Char → Bool} {s : List Char} (h : ∀ c ∈ s, ws c = false) : trim ws s = s := by
  unfold trim
  have h1 : s.dropWhile ws = s := by
    cases s with
    | nil => rfl
    | cons c t => rw [List.dropWhile_cons, if_neg]; simp [h c List.mem_cons_self]
  rw [h1]
  have h2 : s.reverse.dropWhile ws = s.reverse := by
    cases hs : s.reverse with
    | nil => rfl
    | cons c t =>
      rw [List.dropWhile_cons, if_neg]
      have : c ∈ s := by rw [← List.mem_reverse, hs]; exact List.mem_cons_self
      simp [h c this]
  rw [h2, List.reverse_reverse]

theorem splitOnce_append {c : Char} {a b : List Char} (h : c ∉ a) : splitOnce c (a ++ c :: b) = some (a, b) := by
  induction a with
  | nil => simp [splitOnce]
  | cons x t ih =>
    have h1 : x ≠ c := fun hc => h (by simp [hc])
    have h2 : c ∉ t := fun hc => h (by simp [hc])
    rw [List.cons_append, splitOnce, if_neg h1, ih h2]; rfl

theorem splitOnce_none {c : Char} {a : List Char} (h : c ∉ a) : splitOnce c a = none := by
  induction a with
  | nil => rfl
  | cons x t ih =>
    have h1 : x ≠ c := fun hc => h (by simp [hc])
    have h2 : c ∉ t := fun hc => h (by simp [hc])
    rw [splitOnce, if_neg h1, ih h2]; rfl

theorem splitOnce_some {c : Char} {s a b : List Char} (h : splitOnce c s = some (a, b)) :
    s = a ++ c :: b ∧ c ∉ a := by
  induction s generalizing a b with
  | nil => cases h
  | cons x t ih =>
    rw [splitOnce] at h
    by_cases hx : x = c
    · rw [if_pos hx] at h; cases h; simp [hx]
    · rw [if_neg hx] at h
      cases hs : splitOnce c t with
      | none => rw [hs] at h; cases h
      | some p =>
        rw [hs] at h
        obtain ⟨p1, p2⟩ := p
        simp only [Option.map_some, Option.some.injEq, Prod.mk.injEq] at h
        obtain ⟨rfl, rfl⟩ := h
        have ⟨i1, i2⟩ := ih hs
        exact ⟨by rw [i1]; rfl, by simp [Ne.symm hx, i2]⟩

theorem signOf_digits {t : List Char} (h : ∀ c ∈ t, c.isDigit = true) : signOf t = (false, t) := by
  unfold signOf
  split
  · exact absurd (h '-' List.mem_cons_self) (by decide)
  · exact absurd (h '+' List.mem_cons_self) (by decide)
  · rfl

theorem allDigits_iff {l : List Char} : allDigits l = true ↔ ∀ c ∈ l, c.isDigit = true := by
  simp [allDigits]

theorem parseInt_showInt (n : Int) : parseInt (showInt n) = some n := by
  unfold showInt
  by_cases h : n < 0
  · have e : signOf ((if n < 0 then ['-'] else []) ++ dec n.natAbs) = (true, dec n.natAbs) := by rw [if_pos h]; rfl
    unfold parseInt
    rw [e]
    simp only [dec_ne_nil, false_or, allDigits_iff.2 (fun c hc => isDigit_dec hc), not_true, if_false, digitsVal_dec, if_true]
    congr 1; omega
  · have e : signOf ((if n < 0 then ['-'] else []) ++ dec n.natAbs) = (false, dec n.natAbs) := by
      rw [if_neg h]; exact signOf_digits (fun c hc => isDigit_dec hc)
    unfold parseInt
    rw [e]
    simp only [dec_ne_nil, false_or, allDigits_iff.2 (fun c hc => isDigit_dec hc), not_true, if_false, digitsVal_dec]
    simp only [Bool.false_eq_true, if_false]
    congr 1; omega

theorem mem_showInt {n : Int} {c : Char} (h : c ∈ showInt n) : c = '-' ∨ c.isDigit = true := by
  unfold showInt at h
  rw [List.mem_append] at h
  rcases h with h | h
  · left; split at h <;> simp at h; exact h
  · exact Or.inr (isDigit_dec h)

/-- What is assumed of the whitespace predicate: the characters of numerals are not whitespace. -/
structure NumeralChars (ws : Char → Bool) : Prop where
  digit : ∀ c, c.isDigit = true → ws c = false
  minus : ws '-' = false
  plus : ws '+' = false
  slash : ws '/' = false
  dot : ws '.' = false
  i : ws 'i' = false

theorem NumeralChars.showInt {ws : Char → Bool} (h : NumeralChars ws) {n : Int} {c : Char} (hc : c ∈ showInt n) :
    ws c = false := by
  rcases mem_showInt hc with rfl | hd
  · exact h.minus
  · exact h.digit c hd

end Verif
