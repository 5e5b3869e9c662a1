import Verif.Common.Decimal
import Verif.Common.Fixed
/-! # Durations as text: `format_duration` and `parse_duration`

Text is its list of bytes; a byte is written as the `Char` of that code.  `parse_duration` returns a nested
option: the outer `none` is an arithmetic-overflow panic (the two unchecked `i128` multiplications), the inner
`none` the `None` of the code. -/
namespace Verif.Time

/-- Drop trailing `'0'`s: the `while f.ends_with('0') { f.pop(); }` loops, base/src/temporal.rs:618-620,
743-745, 763-765. -/
def trimZeros (l : List Char) : List Char := (l.reverse.dropWhile (· == '0')).reverse

/-- `frac_str`, base/src/temporal.rs:616-622. -/
def fracStr (frac width : Nat) : List Char := trimZeros (decPad width frac)

/-- `format!("{w}<unit>")` or `format!("{w}.{frac}<unit>")`, base/src/temporal.rs:640-652. -/
def withFrac (w frac width : Nat) (unit : List Char) : List Char :=
  if frac = 0 then dec w ++ unit else dec w ++ '.' :: fracStr frac width ++ unit

/-- The seconds component, base/src/temporal.rs:639-646. -/
def secsText (secs frac : Nat) : List Char :=
  if frac = 0 then (if secs > 0 then dec secs ++ ['s'] else [])
  else dec secs ++ '.' :: fracStr frac 9 ++ ['s']

/-- The body of `format_duration` for a positive magnitude, base/src/temporal.rs:623-654. -/
def formatAbs (abs : Nat) : List Char :=
  if abs ≥ 1000000000 then
    let d := abs / 86400000000000
    let abs1 := abs % 86400000000000
    let h := abs1 / 3600000000000
    let abs2 := abs1 % 3600000000000
    let m := abs2 / 60000000000
    let abs3 := abs2 % 60000000000
    let secs := abs3 / 1000000000
    let frac := abs3 % 1000000000
    (if d > 0 then dec d ++ ['d'] else []) ++ (if h > 0 then dec h ++ ['h'] else []) ++
      (if m > 0 then dec m ++ ['m'] else []) ++
      secsText secs frac
  else if abs ≥ 1000000 then withFrac (abs / 1000000) (abs % 1000000) 6 ['m', 's']
  else if abs ≥ 1000 then withFrac (abs / 1000) (abs % 1000) 3 ['u', 's']
  else dec abs ++ ['n', 's']

/-- `format_duration`, base/src/temporal.rs:599-656. -/
def formatDuration (nanos : Int) : List Char :=
  if nanos = 0 then ['0', 's'] else (if nanos < 0 then ['-'] else []) ++ formatAbs nanos.natAbs

/-- `i128::MAX`. -/
abbrev i128Max : Nat := 170141183460469231731687303715884105727

/-- The unit at the head of the rest, base/src/temporal.rs:692-712; the micro sign is the bytes C2 B5. -/
def unitOf : List Char → Option (Nat × List Char)
  | 'm' :: 's' :: t => some (1000000, t)
  | 'n' :: 's' :: t => some (1, t)
  | 'u' :: 's' :: t => some (1000, t)
  | 'Â' :: 'µ' :: 's' :: t => some (1000, t)
  | 's' :: t => some (1000000000, t)
  | 'm' :: t => some (60000000000, t)
  | 'h' :: t => some (3600000000000, t)
  | 'd' :: t => some (86400000000000, t)
  | _ => none

/-- `str::parse::<i128>` on a string of digits. -/
def parseI128 (l : List Char) : Option Nat := if digitsVal l ≤ i128Max then some (digitsVal l) else none

/-- The optional fraction after the integer digits, base/src/temporal.rs:681-688: its digits and the rest. -/
def fracPart : List Char → List Char × List Char
  | '.' :: r2 => (r2.takeWhile Char.isDigit, r2.dropWhile Char.isDigit)
  | r => ([], r)

/-- One component of `parse_duration`, base/src/temporal.rs:675-719, from the rest of the text and the total so far
to the new rest and total. -/
def parseComponent (rest : List Char) (total : Nat) : Option (Option (List Char × Nat)) :=
  let int := rest.takeWhile Char.isDigit
  let r1 := rest.dropWhile Char.isDigit
  let fr := fracPart r1
  if int = [] ∧ fr.1 = [] then some none
  else match unitOf fr.2 with
    | none => some none
    | some (unit, r) =>
      match (if int = [] then some 0 else parseI128 int) with
      | none => some none
      | some iv =>
        if iv * unit > i128Max ∨ total + iv * unit > i128Max then some none
        else if fr.1 = [] then some (some (r, total + iv * unit))
        else match parseI128 fr.1 with
          | none => some none
          | some fv =>
            if 10 ^ fr.1.length > i128Max ∨ fv * unit > i128Max then none
            else if total + iv * unit + fv * unit / 10 ^ fr.1.length > i128Max then some none
            else some (some (r, total + iv * unit + fv * unit / 10 ^ fr.1.length))

/-- The loop of `parse_duration`, base/src/temporal.rs:673-722; every round consumes at least one character, so the
length of the text is enough fuel. -/
def parseComponents : Nat → List Char → Nat → Option (Option Nat)
  | _, [], total => some (some total)
  | 0, _, _ => some none
  | f + 1, rest, total =>
    match parseComponent rest total with
    | none => none
    | some none => some none
    | some (some (r, t)) => parseComponents f r t

/-- The sign, base/src/temporal.rs:663-667. -/
def durSign : List Char → Bool × List Char
  | '-' :: t => (true, t)
  | '+' :: t => (false, t)
  | s => (false, s)

/-- `parse_duration`, base/src/temporal.rs:660-728. -/
def parseDuration (s : List Char) : Option (Option Int) :=
  let sg := durSign s
  if sg.2 = [] then some none
  else match parseComponents s.length sg.2 0 with
    | none => none
    | some none => some none
    | some (some total) =>
      let v : Int := if sg.1 then -(total : Int) else total
      some (if InI64 v then some v else none)

/-! ## Lemmas -/

theorem dropWhile_zero_split (l : List Char) : ∃ k, l = List.replicate k '0' ++ l.dropWhile (· == '0') := by
  induction l with
  | nil => exact ⟨0, rfl⟩
  | cons c t ih =>
    by_cases h : c = '0'
    · obtain ⟨k, hk⟩ := ih
      refine ⟨k + 1, ?_⟩
      subst h
      rw [List.dropWhile_cons, if_pos (by simp), List.replicate_succ, List.cons_append, ← hk]
    · exact ⟨0, by rw [List.dropWhile_cons, if_neg (by simpa using h)]; rfl⟩

theorem trimZeros_split (l : List Char) : ∃ k, l = trimZeros l ++ List.replicate k '0' := by
  obtain ⟨k, hk⟩ := dropWhile_zero_split l.reverse
  refine ⟨k, ?_⟩
  have := congrArg List.reverse hk
  rw [List.reverse_reverse, List.reverse_append, List.reverse_replicate] at this
  exact this

theorem digitsVal_zeros (k : Nat) : digitsVal (List.replicate k '0') = 0 := by
  rw [← fixDigits_zero, digitsVal_fix]; simp

theorem fracStr_spec {frac width : Nat} (h0 : 0 < frac) (hw : 0 < width) (h : frac < 10 ^ width) :
    (∀ c ∈ fracStr frac width, c.isDigit = true) ∧ fracStr frac width ≠ [] ∧ (fracStr frac width).length ≤ width ∧
      digitsVal (fracStr frac width) * 10 ^ (width - (fracStr frac width).length) = frac := by
  obtain ⟨k, hk⟩ := trimZeros_split (decPad width frac)
  change decPad width frac = fracStr frac width ++ _ at hk
  rw [decPad_eq hw h] at hk
  have hl : (fracStr frac width).length + k = width := by
    have := congrArg List.length hk
    rw [fixDigits_length, List.length_append, List.length_replicate] at this
    omega
  have hv : digitsVal (fracStr frac width) * 10 ^ k = frac := by
    have := congrArg digitsVal hk
    rw [digitsVal_fix, Nat.mod_eq_of_lt h, digitsVal_append, digitsVal_zeros, List.length_replicate] at this
    omega
  refine ⟨fun c hc => ?_, fun hn => ?_, by omega, ?_⟩
  · have : c ∈ fixDigits width frac := by rw [hk]; exact List.mem_append_left _ hc
    exact isDigit_fixDigits this
  · rw [hn] at hv; simp [digitsVal] at hv; omega
  · rw [show width - (fracStr frac width).length = k by omega]; exact hv

theorem takeWhile_digits {a b : List Char} (ha : ∀ c ∈ a, c.isDigit = true) (hb : ∀ c ∈ b.head?, c.isDigit = false) :
    (a ++ b).takeWhile Char.isDigit = a ∧ (a ++ b).dropWhile Char.isDigit = b := by
  induction a with
  | nil =>
    cases b with
    | nil => simp
    | cons c t => have := hb c (by simp); simp [this]
  | cons c t ih =>
    have h1 := ha c List.mem_cons_self
    have h2 := ih (fun x hx => ha x (List.mem_cons_of_mem _ hx))
    simp [h1, h2]

/-- Text that starts with a digit or is empty. -/
def StartsDigit (l : List Char) : Prop := ∀ c ∈ l.head?, c.isDigit = true

theorem startsDigit_nil : StartsDigit [] := by simp [StartsDigit]

theorem startsDigit_dec (n : Nat) (l : List Char) : StartsDigit (dec n ++ l) := by
  intro c hc
  cases h : dec n with
  | nil => exact absurd h (dec_ne_nil n)
  | cons a t =>
    rw [h] at hc
    simp only [List.cons_append, List.head?_cons, Option.mem_def, Option.some.injEq] at hc
    subst hc
    exact isDigit_dec (n := n) (by rw [h]; exact List.mem_cons_self)

/-- The unit names written by `format_duration`. -/
inductive IsUnit : List Char → Nat → Prop
  | d : IsUnit ['d'] 86400000000000
  | h : IsUnit ['h'] 3600000000000
  | m : IsUnit ['m'] 60000000000
  | s : IsUnit ['s'] 1000000000
  | ms : IsUnit ['m', 's'] 1000000
  | us : IsUnit ['u', 's'] 1000
  | ns : IsUnit ['n', 's'] 1

theorem unitOf_append {u : List Char} {n : Nat} (h : IsUnit u n) {r : List Char} (hr : StartsDigit r) :
    unitOf (u ++ r) = some (n, r) := by
  cases h <;> try rfl
  cases r with
  | nil => rfl
  | cons c t =>
    have : c.isDigit = true := hr c (by simp)
    have hc : c ≠ 's' := by rintro rfl; exact absurd this (by decide)
    simp only [List.cons_append, List.nil_append]
    unfold unitOf
    split <;> simp_all

theorem isUnit_head {u : List Char} {n : Nat} (h : IsUnit u n) (r : List Char) :
    (∀ c ∈ (u ++ r).head?, c.isDigit = false) ∧ (∀ c ∈ (u ++ r).head?, c ≠ '.') := by
  cases h <;> simp <;> decide

theorem isUnit_pos {u : List Char} {n : Nat} (h : IsUnit u n) : 0 < n ∧ n ≤ 86400000000000 := by
  cases h <;> decide

theorem frPart {r1 : List Char} (h : ∀ c ∈ r1.head?, c ≠ '.') : fracPart r1 = ([], r1) := by
  unfold fracPart
  split
  · rename_i r2
    exact absurd rfl (h '.' (by simp))
  · rfl

theorem frPart_dot (r2 : List Char) : fracPart ('.' :: r2) = (r2.takeWhile Char.isDigit, r2.dropWhile Char.isDigit) := rfl

/-- A whole component is read back. -/
theorem component_int {u : List Char} {n : Nat} (hu : IsUnit u n) {r : List Char} (hr : StartsDigit r) (w total : Nat)
    (hw : w ≤ 10 ^ 19) (ht : total ≤ 10 ^ 19) :
    parseComponent (dec w ++ u ++ r) total = some (some (r, total + w * n)) := by
  have hd : ∀ c ∈ dec w, c.isDigit = true := fun c hc => isDigit_dec hc
  have htw := takeWhile_digits (a := dec w) (b := u ++ r) hd (isUnit_head hu r).1
  have hb : w * n ≤ 10 ^ 19 * 86400000000000 := Nat.mul_le_mul hw (isUnit_pos hu).2
  unfold parseComponent
  simp only [List.append_assoc, htw.1, htw.2, frPart (isUnit_head hu r).2, unitOf_append hu hr, dec_ne_nil, if_false,
    false_and]
  have : parseI128 (dec w) = some w := by
    unfold parseI128; rw [digitsVal_dec, if_pos (by simp only [i128Max]; omega)]
  rw [this]
  simp only
  rw [if_neg (by simp only [i128Max]; omega)]
  simp

/-- A component with a fraction is read back. -/
theorem component_frac {u : List Char} {n : Nat} (hu : IsUnit u n) {width : Nat} (hn : n = 10 ^ width) (hwd : 0 < width)
    (hwd' : width ≤ 9) {r : List Char} (hr : StartsDigit r) (w frac total : Nat) (hf0 : 0 < frac) (hf : frac < n)
    (hw : w ≤ 10 ^ 19) (ht : total ≤ 10 ^ 19) :
    parseComponent (dec w ++ '.' :: (fracStr frac width ++ (u ++ r))) total = some (some (r, total + w * n + frac)) := by
  obtain ⟨f1, f2, f3, f4⟩ := fracStr_spec hf0 hwd (hn ▸ hf)
  have hd : ∀ c ∈ dec w, c.isDigit = true := fun c hc => isDigit_dec hc
  have htw := takeWhile_digits (a := dec w) (b := '.' :: (fracStr frac width ++ (u ++ r))) hd
    (by simp)
  have htw2 := takeWhile_digits (a := fracStr frac width) (b := u ++ r) f1 (isUnit_head hu r).1
  have hb : w * n ≤ 10 ^ 19 * 86400000000000 := Nat.mul_le_mul hw (isUnit_pos hu).2
  have hfv : digitsVal (fracStr frac width) ≤ frac := by
    calc digitsVal (fracStr frac width) ≤ digitsVal (fracStr frac width) * 10 ^ (width - (fracStr frac width).length) :=
          Nat.le_mul_of_pos_right _ (by positivity)
      _ = frac := f4
  have hn9 : n ≤ 10 ^ 9 := hn ▸ Nat.pow_le_pow_right (by decide) hwd'
  have hmul : digitsVal (fracStr frac width) * n ≤ 10 ^ 9 * 10 ^ 9 := Nat.mul_le_mul (by omega) hn9
  have hlen : 10 ^ (fracStr frac width).length ≤ 10 ^ 9 := Nat.pow_le_pow_right (by decide) (by omega)
  have hdiv : digitsVal (fracStr frac width) * n / 10 ^ (fracStr frac width).length = frac := by
    rw [hn]
    have : 10 ^ width = 10 ^ (width - (fracStr frac width).length) * 10 ^ (fracStr frac width).length := by
      rw [← pow_add]; congr 1; omega
    rw [this, ← Nat.mul_assoc, Nat.mul_div_cancel _ (by positivity), f4]
  unfold parseComponent
  simp only [htw.1, htw.2, frPart_dot, htw2.1, htw2.2, unitOf_append hu hr, dec_ne_nil, if_false, false_and]
  have hp : parseI128 (dec w) = some w := by
    unfold parseI128; rw [digitsVal_dec, if_pos (by simp only [i128Max]; omega)]
  have hp2 : parseI128 (fracStr frac width) = some (digitsVal (fracStr frac width)) := by
    unfold parseI128; rw [if_pos (by simp only [i128Max]; omega)]
  rw [hp]
  simp only
  rw [if_neg (by simp only [i128Max]; omega), if_neg f2, hp2]
  simp only
  rw [if_neg (by simp only [i128Max]; omega), hdiv, if_neg (by simp only [i128Max]; omega)]

theorem parseComponents_nil (f total : Nat) : parseComponents f [] total = some (some total) := by
  cases f <;> rfl

theorem parse_step {f : Nat} {rest r : List Char} {total t : Nat} (hne : rest ≠ [])
    (h : parseComponent rest total = some (some (r, t))) :
    parseComponents (f + 1) rest total = parseComponents f r t := by
  cases rest with
  | nil => exact absurd rfl hne
  | cons c l => rw [parseComponents]; simp only [h]; simp

/-- An optional whole component. -/
theorem parse_opt {u : List Char} {n : Nat} (hu : IsUnit u n) {r : List Char} (hr : StartsDigit r) (w total : Nat)
    (hw : w ≤ 10 ^ 19) (ht : total ≤ 10 ^ 19) (f : Nat) (res : Option (Option Nat))
    (h : ∀ f', f ≤ f' → parseComponents f' r (total + w * n) = res) :
    ∀ f', f + 1 ≤ f' → parseComponents f' ((if w > 0 then dec w ++ u else []) ++ r) total = res := by
  intro f' hf'
  obtain ⟨g, rfl⟩ : ∃ g, f' = g + 1 := ⟨f' - 1, by omega⟩
  by_cases h0 : w > 0
  · rw [if_pos h0, parse_step (by simp [dec_ne_nil]) (component_int hu hr w total hw ht)]
    exact h g (by omega)
  · rw [if_neg h0, List.nil_append]
    have : w = 0 := by omega
    subst this
    rw [Nat.zero_mul, Nat.add_zero] at h
    exact h (g + 1) (by omega)

theorem startsDigit_opt (w : Nat) (u : List Char) {r : List Char} (hr : StartsDigit r) :
    StartsDigit ((if w > 0 then dec w ++ u else []) ++ r) := by
  split
  · rw [List.append_assoc]; exact startsDigit_dec _ _
  · exact hr

theorem withFrac_parse {u : List Char} {n width : Nat} (hu : IsUnit u n) (hn : n = 10 ^ width) (hw : 0 < width)
    (hw' : width ≤ 9) (w frac : Nat) (hf : frac < n) (hwb : w ≤ 10 ^ 19) (total : Nat) (ht : total ≤ 10 ^ 19) :
    ∀ f', 1 ≤ f' → parseComponents f' (withFrac w frac width u) total = some (some (total + w * n + frac)) := by
  intro f' hf'
  obtain ⟨g, rfl⟩ : ∃ g, f' = g + 1 := ⟨f' - 1, by omega⟩
  unfold withFrac
  by_cases h0 : frac = 0
  · rw [if_pos h0]
    have := component_int hu startsDigit_nil w total hwb ht
    rw [List.append_nil] at this
    rw [parse_step (by simp [dec_ne_nil]) this, parseComponents_nil, h0, Nat.add_zero]
  · rw [if_neg h0]
    have := component_frac hu hn hw hw' startsDigit_nil w frac total (by omega) hf hwb ht
    rw [List.append_nil] at this
    rw [List.append_assoc, List.cons_append]
    rw [parse_step (by simp [dec_ne_nil]) this, parseComponents_nil]

theorem secsPart_parse (secs frac total : Nat) (hf : frac < 1000000000) (hs : secs ≤ 10 ^ 19) (ht : total ≤ 10 ^ 19) :
    ∀ f', 1 ≤ f' → parseComponents f' (secsText secs frac) total = some (some (total + secs * 1000000000 + frac)) := by
  intro f' hf'
  unfold secsText
  by_cases h0 : frac = 0
  · rw [if_pos h0, h0, Nat.add_zero]
    have := parse_opt IsUnit.s startsDigit_nil secs total hs ht 0 (some (some (total + secs * 1000000000)))
      (fun f' _ => parseComponents_nil _ _) f' (by omega)
    rw [List.append_nil] at this
    exact this
  · have := withFrac_parse IsUnit.s (width := 9) (by norm_num) (by decide) (by decide) secs frac hf hs total ht f' hf'
    unfold withFrac at this
    rw [if_neg h0] at this ⊢
    exact this

theorem secsPart_starts (secs frac : Nat) : StartsDigit (secsText secs frac) := by
  unfold secsText
  split
  · split
    · exact startsDigit_dec _ _
    · exact startsDigit_nil
  · rw [List.append_assoc]; exact startsDigit_dec _ _

theorem formatAbs_parse (n : Nat) (hn : n ≤ 10 ^ 19) (h0 : 0 < n) :
    ∀ f', 4 ≤ f' → parseComponents f' (formatAbs n) 0 = some (some n) := by
  intro f' hf'
  unfold formatAbs
  by_cases h1 : n ≥ 1000000000
  · rw [if_pos h1]
    simp only [List.append_assoc]
    have hd := Nat.div_add_mod n 86400000000000
    have hh := Nat.div_add_mod (n % 86400000000000) 3600000000000
    have hm := Nat.div_add_mod (n % 86400000000000 % 3600000000000) 60000000000
    have hs := Nat.div_add_mod (n % 86400000000000 % 3600000000000 % 60000000000) 1000000000
    generalize n % 86400000000000 = n1 at *
    generalize n / 86400000000000 = d at *
    generalize n1 / 3600000000000 = h at *
    generalize n1 % 3600000000000 = n2 at *
    generalize n2 / 60000000000 = m at *
    generalize n2 % 60000000000 = n3 at *
    have hfr : n3 % 1000000000 < 1000000000 := Nat.mod_lt _ (by decide)
    generalize n3 / 1000000000 = s at *
    generalize n3 % 1000000000 = fr at *
    have hst := secsPart_starts s fr
    refine parse_opt IsUnit.d (startsDigit_opt h ['h'] (startsDigit_opt m ['m'] hst)) d 0 (by omega) (by omega) 3 _ ?_ f' hf'
    refine parse_opt IsUnit.h (startsDigit_opt m ['m'] hst) h _ (by omega) (by omega) 2 _ ?_
    refine parse_opt IsUnit.m hst m _ (by omega) (by omega) 1 _ ?_
    intro g hg
    rw [secsPart_parse s fr _ hfr (by omega) (by omega) g hg]
    congr 2
    omega
  · rw [if_neg h1]
    by_cases h2 : n ≥ 1000000
    · rw [if_pos h2, withFrac_parse IsUnit.ms (width := 6) (by norm_num) (by decide) (by decide) _ _
        (Nat.mod_lt _ (by decide)) (by omega) 0 (by omega) f' (by omega)]
      congr 2; omega
    · rw [if_neg h2]
      by_cases h3 : n ≥ 1000
      · rw [if_pos h3, withFrac_parse IsUnit.us (width := 3) (by norm_num) (by decide) (by decide) _ _
          (Nat.mod_lt _ (by decide)) (by omega) 0 (by omega) f' (by omega)]
        congr 2; omega
      · rw [if_neg h3]
        obtain ⟨g, rfl⟩ : ∃ g, f' = g + 1 := ⟨f' - 1, by omega⟩
        have := component_int IsUnit.ns startsDigit_nil n 0 (by omega) (by omega)
        rw [List.append_nil] at this
        rw [parse_step (by simp [dec_ne_nil]) this, parseComponents_nil]
        congr 2; omega

/-! ### The fuel of the loop -/

theorem unitOf_shorter {l r : List Char} {u : Nat} (h : unitOf l = some (u, r)) : r.length < l.length := by
  unfold unitOf at h
  split at h <;> simp only [Option.some.injEq, Prod.mk.injEq, reduceCtorEq] at h <;>
    (obtain ⟨-, rfl⟩ := h; simp only [List.length_cons]; omega)

theorem fracPart_le (l : List Char) : (fracPart l).2.length ≤ l.length := by
  unfold fracPart
  split
  · rename_i r2
    have := (List.dropWhile_suffix (l := r2) Char.isDigit).length_le
    simp only [List.length_cons]; omega
  · exact Nat.le_refl _

theorem component_shorter {rest r : List Char} {total t : Nat} (h : parseComponent rest total = some (some (r, t))) :
    r.length < rest.length := by
  have h1 := (List.dropWhile_suffix (l := rest) Char.isDigit).length_le
  have h2 := fracPart_le (rest.dropWhile Char.isDigit)
  unfold parseComponent at h
  simp only at h
  split at h
  · cases h
  · split at h
    · cases h
    · rename_i unit r' hu
      have h3 := unitOf_shorter hu
      have : r = r' := by
        split at h
        · cases h
        · split at h
          · cases h
          · split at h
            · simp only [Option.some.injEq, Prod.mk.injEq] at h; exact h.1.symm
            · split at h
              · cases h
              · split at h
                · cases h
                · split at h
                  · cases h
                  · simp only [Option.some.injEq, Prod.mk.injEq] at h; exact h.1.symm
      subst this
      omega

/-- Any fuel of at least the length of the text gives the same result. -/
theorem parse_fuel (f g : Nat) (rest : List Char) (total : Nat) (hf : rest.length ≤ f) (hg : rest.length ≤ g) :
    parseComponents f rest total = parseComponents g rest total := by
  induction f generalizing g rest total with
  | zero =>
    have : rest = [] := List.length_eq_zero_iff.1 (by omega)
    subst this; rw [parseComponents_nil, parseComponents_nil]
  | succ f ih =>
    cases rest with
    | nil => rw [parseComponents_nil, parseComponents_nil]
    | cons c t =>
      obtain ⟨g, rfl⟩ : ∃ g', g = g' + 1 := ⟨g - 1, by simp at hg; omega⟩
      rw [parseComponents, parseComponents]
      · cases hc : parseComponent (c :: t) total with
        | none => rfl
        | some o =>
          cases o with
          | none => rfl
          | some p =>
            obtain ⟨r, t'⟩ := p
            have := component_shorter hc
            simp only
            exact ih g r t' (by omega) (by omega)
      · simp
      · simp

theorem formatAbs_head (n : Nat) (h0 : 0 < n) : formatAbs n ≠ [] ∧ StartsDigit (formatAbs n) := by
  refine ⟨fun h => ?_, ?_⟩
  · have := formatAbs_parse n
    by_cases hn : n ≤ 10 ^ 19
    · have := this hn h0 4 (Nat.le_refl _)
      rw [h, parseComponents_nil] at this
      simp at this; omega
    · unfold formatAbs at h
      rw [if_pos (by omega)] at h
      simp only at h
      have h1 : n / 86400000000000 > 0 := by omega
      rw [if_pos h1] at h
      simp [dec_ne_nil] at h
  · unfold formatAbs
    split
    · simp only [List.append_assoc]
      exact startsDigit_opt _ _ (startsDigit_opt _ _ (startsDigit_opt _ _ (secsPart_starts _ _)))
    · split
      · unfold withFrac
        split
        · exact startsDigit_dec _ _
        · rw [List.append_assoc]; exact startsDigit_dec _ _
      · split
        · unfold withFrac
          split
          · exact startsDigit_dec _ _
          · rw [List.append_assoc]; exact startsDigit_dec _ _
        · exact startsDigit_dec _ _

theorem durSign_digit {l : List Char} (h : StartsDigit l) : durSign l = (false, l) := by
  cases l with
  | nil => rfl
  | cons c t =>
    have : c.isDigit = true := h c (by simp)
    unfold durSign
    split
    · rename_i heq; simp only [List.cons.injEq] at heq; rw [heq.1] at this; exact absurd this (by decide)
    · rename_i heq; simp only [List.cons.injEq] at heq; rw [heq.1] at this; exact absurd this (by decide)
    · rfl

theorem parse_format {n : Int} (h : InI64 n) : parseDuration (formatDuration n) = some (some n) := by
  unfold formatDuration
  by_cases h0 : n = 0
  · subst h0; decide
  · rw [if_neg h0]
    unfold InI64 at h
    obtain ⟨hne, hsd⟩ := formatAbs_head n.natAbs (by omega)
    have hp := formatAbs_parse n.natAbs (by omega) (by omega)
    by_cases hneg : n < 0
    · rw [if_pos hneg]
      unfold parseDuration
      simp only [durSign, List.cons_append, List.nil_append]
      rw [if_neg hne, parse_fuel _ (max 4 (formatAbs n.natAbs).length) _ _ (by simp) (by omega), hp _ (by omega)]
      simp only [if_true]
      rw [if_pos (by unfold InI64; omega)]
      congr 2; omega
    · rw [if_neg hneg]
      unfold parseDuration
      rw [List.nil_append, durSign_digit hsd]
      simp only
      rw [if_neg hne, parse_fuel _ (max 4 (formatAbs n.natAbs).length) _ _ (by simp) (by omega), hp _ (by omega)]
      simp only [Bool.false_eq_true, if_false]
      rw [if_pos (by unfold InI64; omega)]
      congr 2; omega

end Verif.Time
