import Mathlib.Tactic.Ring
import Mathlib.Tactic.Positivity
import Mathlib.Data.List.Induction
/-! # Decimal text: the formatting and digit-scanning primitives of the standard library

`dec n` is what `{}` writes for an unsigned integer and `decPad k n` what `{:0k}` writes; `digitsVal` is
the value of a string of digits. -/
namespace Verif

/-- `{}` on an unsigned integer. -/
def dec (n : Nat) : List Char := Nat.toDigits 10 n
/-- `{:0k}` on an unsigned integer: padded with zeros to at least `k` characters. -/
def decPad (k n : Nat) : List Char := List.replicate (k - (dec n).length) '0' ++ dec n
/-- The number written by a string of decimal digits. -/
def digitsVal (l : List Char) : Nat := l.foldl (fun a c => 10 * a + (c.toNat - 48)) 0
def allDigits (l : List Char) : Bool := l.all Char.isDigit

/-- `k` digits of `n`, most significant first. -/
def fixDigits : Nat → Nat → List Char
  | 0, _ => []
  | k + 1, n => fixDigits k (n / 10) ++ [Nat.digitChar (n % 10)]

theorem fixDigits_length (k n : Nat) : (fixDigits k n).length = k := by
  induction k generalizing n with
  | zero => rfl
  | succ k ih => simp [fixDigits, ih]

theorem fixDigits_zero (k : Nat) : fixDigits k 0 = List.replicate k '0' := by
  induction k with
  | zero => rfl
  | succ k ih =>
    rw [fixDigits, Nat.zero_div, ih, List.replicate_succ']
    rfl

theorem dec_lt {n : Nat} (h : n < 10) : dec n = [Nat.digitChar n] := Nat.toDigits_of_lt_base h

theorem dec_ge {n : Nat} (h : 10 ≤ n) : dec n = dec (n / 10) ++ [Nat.digitChar (n % 10)] :=
  Nat.toDigits_of_base_le (by decide) h

theorem decPad_eq {k n : Nat} (hk : 0 < k) (h : n < 10 ^ k) : decPad k n = fixDigits k n := by
  induction k generalizing n with
  | zero => omega
  | succ k ih =>
    rw [fixDigits]
    by_cases h10 : n < 10
    · rw [decPad, dec_lt h10, Nat.div_eq_of_lt h10, Nat.mod_eq_of_lt h10, fixDigits_zero]
      simp
    · have hd : 0 < k := by
        rcases Nat.eq_zero_or_pos k with rfl | h0
        · simp at h; omega
        · exact h0
      rw [← ih hd (by rw [pow_succ] at h; omega), decPad, dec_ge (by omega), decPad]
      simp

theorem dec_append {q : Nat} (hq : 0 < q) (k r : Nat) (hr : r < 10 ^ k) :
    dec (q * 10 ^ k + r) = dec q ++ fixDigits k r := by
  induction k generalizing r with
  | zero => simp at hr; subst hr; simp [fixDigits]
  | succ k ih =>
    have h1 : q * 10 ^ (k + 1) + r = 10 * (q * 10 ^ k + r / 10) + r % 10 := by
      rw [pow_succ, Nat.mul_add, ← Nat.mul_assoc, Nat.mul_comm 10 (q * 10 ^ k)]; omega
    have hpos : 0 < q * 10 ^ k + r / 10 := by
      have : 0 < q * 10 ^ k := Nat.mul_pos hq (by positivity)
      omega
    rw [h1]
    have := Nat.toDigits_append_toDigits (b := 10) (d := r % 10) (by decide) hpos (by omega)
    unfold dec at *
    rw [← this, ih (r / 10) (by rw [pow_succ] at hr; omega), fixDigits, List.append_assoc,
      Nat.toDigits_of_lt_base (by omega : r % 10 < 10)]

theorem isDigit_dec {n : Nat} {c : Char} (h : c ∈ dec n) : c.isDigit = true :=
  Nat.isDigit_of_mem_toDigits (by decide) (by decide) h

theorem isDigit_fixDigits {k n : Nat} {c : Char} (h : c ∈ fixDigits k n) : c.isDigit = true := by
  induction k generalizing n with
  | zero => simp [fixDigits] at h
  | succ k ih =>
    rw [fixDigits, List.mem_append] at h
    rcases h with h | h
    · exact ih h
    · simp only [List.mem_singleton] at h; subst h; simp; omega

theorem dec_ne_nil (n : Nat) : dec n ≠ [] := Nat.toDigits_ne_nil

theorem digitChar_val {n : Nat} (h : n < 10) : (Nat.digitChar n).toNat - 48 = n := by
  have : n = 0 ∨ n = 1 ∨ n = 2 ∨ n = 3 ∨ n = 4 ∨ n = 5 ∨ n = 6 ∨ n = 7 ∨ n = 8 ∨ n = 9 := by omega
  rcases this with rfl | rfl | rfl | rfl | rfl | rfl | rfl | rfl | rfl | rfl <;> decide

theorem digitsVal_snoc (l : List Char) (c : Char) : digitsVal (l ++ [c]) = 10 * digitsVal l + (c.toNat - 48) := by
  simp [digitsVal]

theorem digitsVal_dec (n : Nat) : digitsVal (dec n) = n := by
  induction n using Nat.strongRecOn with
  | ind n ih =>
    by_cases h : n < 10
    · rw [dec_lt h]; simp [digitsVal, digitChar_val h]
    · rw [dec_ge (by omega), digitsVal_snoc, ih _ (by omega), digitChar_val (by omega)]; omega

theorem digitsVal_fix (k n : Nat) : digitsVal (fixDigits k n) = n % 10 ^ k := by
  induction k generalizing n with
  | zero => simp [fixDigits, digitsVal, Nat.mod_one]
  | succ k ih =>
    rw [fixDigits, digitsVal_snoc, ih, digitChar_val (by omega), pow_succ, Nat.mul_comm (10 ^ k) 10,
      Nat.mod_mul]; omega

theorem digitsVal_append (a b : List Char) : digitsVal (a ++ b) = digitsVal a * 10 ^ b.length + digitsVal b := by
  induction b using List.reverseRecOn with
  | nil => simp [digitsVal]
  | append_singleton b c ih =>
    rw [← List.append_assoc, digitsVal_snoc, digitsVal_snoc, ih, List.length_append, List.length_singleton, pow_succ]
    ring

theorem digitsVal_lt {l : List Char} (h : ∀ c ∈ l, c.isDigit = true) : digitsVal l < 10 ^ l.length := by
  induction l using List.reverseRecOn with
  | nil => simp [digitsVal]
  | append_singleton b c ih =>
    have h1 := ih (fun x hx => h x (by simp [hx]))
    have h2 : c.toNat - 48 ≤ 9 := by
      have := h c (by simp)
      simp only [Char.isDigit, Bool.and_eq_true, decide_eq_true_eq] at this
      have := this.2
      have h3 : c.toNat ≤ 57 := this
      omega
    rw [digitsVal_snoc, List.length_append, List.length_singleton, pow_succ]; omega

/-- A string of `k` digits is `fixDigits k` of its value. -/
theorem fixDigits_digitsVal {l : List Char} (h : ∀ c ∈ l, c.isDigit = true) :
    fixDigits l.length (digitsVal l) = l := by
  induction l using List.reverseRecOn with
  | nil => rfl
  | append_singleton b c ih =>
    have hc := h c (by simp)
    simp only [Char.isDigit, Bool.and_eq_true, decide_eq_true_eq] at hc
    have h1 : 48 ≤ c.toNat := hc.1
    have h2 : c.toNat ≤ 57 := hc.2
    rw [List.length_append, List.length_singleton, fixDigits, digitsVal_snoc]
    have e1 : (10 * digitsVal b + (c.toNat - 48)) / 10 = digitsVal b := by omega
    have e2 : (10 * digitsVal b + (c.toNat - 48)) % 10 = c.toNat - 48 := by omega
    rw [e1, e2, ih (fun x hx => h x (by simp [hx]))]
    congr 2
    have hval : c = Char.ofNat c.toNat := (Char.ofNat_toNat c).symm
    generalize c.toNat = m at *
    have : m = 48 ∨ m = 49 ∨ m = 50 ∨ m = 51 ∨ m = 52 ∨ m = 53 ∨ m = 54 ∨ m = 55 ∨ m = 56 ∨ m = 57 := by omega
    rw [hval]
    rcases this with rfl | rfl | rfl | rfl | rfl | rfl | rfl | rfl | rfl | rfl <;> rfl

end Verif
