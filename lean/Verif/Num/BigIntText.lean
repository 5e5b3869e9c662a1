import Verif.Num.BigInt
/-! # Lemmas about `BigInt`'s decimal text -/
namespace Verif.Num.BigInt
open Verif

local notation "T19" => 10000000000000000000

/-- The base-`10^19` digits of `n`, least significant first. -/
def digits19 : Nat → Nat → List Nat
  | 0, _ => []
  | fuel + 1, n => if n = 0 then [] else n % T19 :: digits19 fuel (n / T19)

theorem chunks_eq (fuel : Nat) {a : BigInt} (h : Wf a) (hn : 0 ≤ a.toInt) :
    chunks fuel a = digits19 fuel a.toInt.toNat := by
  induction fuel generalizing a with
  | zero => rfl
  | succ fuel ih =>
    have ⟨t1, t2⟩ := fromU64_spec (x := T19) (by decide)
    rw [chunks, digits19]
    by_cases hz : a.toInt = 0
    · rw [if_pos (h.isZero.2 hz), if_pos (by rw [hz]; rfl)]
    · rw [if_neg (fun hc => hz (h.isZero.1 hc)), if_neg (by omega)]
      obtain ⟨q, r, e, wq, wr, eq, er⟩ := (divRem_spec h t1).2 (by rw [t2]; decide)
      rw [show divRem a (fromU64 10000000000000000000) = some (q, r) from e]
      simp only
      have hq : q.toInt = ((a.toInt.toNat / T19 : Nat) : Int) := by
        rw [eq, t2, Int.tdiv_eq_ediv_of_nonneg hn]; omega
      have hr : r.toInt = ((a.toInt.toNat % T19 : Nat) : Int) := by
        rw [er, t2, Int.tmod_eq_emod_of_nonneg hn]; omega
      rw [ih wq (by rw [hq]; omega), hq]
      congr 1
      have hv : val r.mag.limbs = a.toInt.toNat % T19 := by rw [← wr.natAbs, hr]; rfl
      cases hx : r.mag.asSingle with
      | none =>
        have := wr.not_single hx
        rw [hv] at this
        have h2 : a.toInt.toNat % T19 < T19 := Nat.mod_lt _ (by decide)
        simp only [B] at *
        omega
      | some x =>
        have ⟨x1, x2⟩ := wr.single hx
        rw [← hv]
        cases hm : r.mag with
        | heap v => rw [hm] at hx; simp [Mag.asSingle] at hx
        | inline y => by_cases h0 : y = 0 <;> simp [Mag.limbs, h0, val]

/-- The text of base-`10^19` digits, most significant first. -/
def text19 : List Nat → List Char
  | [] => []
  | top :: rest => dec top ++ rest.flatMap (decPad 19)

theorem digits19_text (fuel n : Nat) (h0 : 0 < n) (hf : n < T19 ^ fuel) :
    text19 (digits19 fuel n).reverse = dec n ∧ (digits19 fuel n).reverse ≠ [] := by
  induction fuel generalizing n with
  | zero => simp at hf; omega
  | succ fuel ih =>
    rw [digits19, if_neg (by omega)]
    have hr : n % T19 < 10 ^ 19 := Nat.mod_lt _ (by decide)
    by_cases hq : n / T19 = 0
    · rw [hq]
      have hd : digits19 fuel 0 = [] := by cases fuel <;> simp [digits19]
      have hn : n % T19 = n := by have := Nat.div_add_mod n T19; rw [hq] at this; omega
      rw [hd, hn]; simp [text19]
    · have hlt : n / T19 < T19 ^ fuel := by
        rw [pow_succ] at hf; exact Nat.div_lt_of_lt_mul (by rwa [Nat.mul_comm] at hf)
      have ⟨i1, i2⟩ := ih (n / T19) (by omega) hlt
      rw [List.reverse_cons]
      refine ⟨?_, by simp⟩
      cases hc : (digits19 fuel (n / T19)).reverse with
      | nil => exact absurd hc i2
      | cons top rest =>
        rw [hc] at i1
        simp only [text19, List.cons_append, List.flatMap_append, ← List.append_assoc] at i1 ⊢
        rw [i1]
        simp only [List.flatMap_cons, List.flatMap_nil, List.append_nil]
        rw [decPad_eq (by decide) hr, ← dec_append (by omega) 19 _ hr]
        congr 1
        have := Nat.div_add_mod n T19
        rw [Nat.mul_comm] at this
        exact this

theorem fuel19 {l : List Nat} (h : Limbs l) : val l < T19 ^ (2 * l.length + 1) := by
  have h1 := val_lt h
  have h2 : B ^ l.length ≤ T19 ^ (2 * l.length) := by
    rw [pow_mul]; exact Nat.pow_le_pow_left (by decide) _
  have h3 : T19 ^ (2 * l.length) ≤ T19 ^ (2 * l.length + 1) := Nat.pow_le_pow_right (by decide) (by omega)
  omega

theorem display_spec {a : BigInt} (h : Wf a) :
    display a = (if a.toInt < 0 then ['-'] else []) ++ dec a.toInt.natAbs := by
  unfold display
  by_cases hz : a.toInt = 0
  · rw [if_pos (h.isZero.2 hz), hz]; rfl
  · rw [if_neg (fun hc => hz (h.isZero.1 hc))]
    have ⟨b1, b2⟩ := abs_spec h
    rw [chunks_eq _ b1 (by rw [b2]; exact abs_nonneg _), b2]
    have e : |a.toInt|.toNat = a.toInt.natAbs := by rw [Int.abs_eq_natAbs]; rfl
    rw [e]
    have ⟨t1, t2⟩ := digits19_text (2 * a.mag.limbs.length + 1) a.toInt.natAbs (by omega)
      (by rw [h.natAbs]; exact fuel19 h.norm.1)
    cases hc : (digits19 (2 * a.mag.limbs.length + 1) a.toInt.natAbs).reverse with
    | nil => exact absurd hc t2
    | cons top rest =>
      rw [hc] at t1
      simp only [text19] at t1
      simp only [List.append_assoc]
      rw [t1]
      congr 1
      simp only [isNegative, decide_eq_true_eq, h.sign_neg]

theorem parseLoop_spec {l : List Char} {acc : BigInt} (h : Wf acc) :
    ((∃ c ∈ l, c.isDigit = false) → parseLoop l acc = none) ∧
    ((∀ c ∈ l, c.isDigit = true) → ∃ r, parseLoop l acc = some r ∧ Wf r ∧
      r.toInt = acc.toInt * 10 ^ l.length + digitsVal l) := by
  induction l generalizing acc with
  | nil => simp [parseLoop, h, digitsVal]
  | cons c t ih =>
    have ⟨t1, t2⟩ := fromU64_spec (x := 10) (by decide)
    have ⟨m1, m2⟩ := mul_spec h t1
    by_cases hd : c.isDigit = true
    · have h9 : c.toNat - 48 ≤ 9 := by
        simp only [Char.isDigit, Bool.and_eq_true, decide_eq_true_eq] at hd
        have h3 : c.toNat ≤ 57 := hd.2
        omega
      have ⟨d1, d2⟩ := fromU64_spec (x := c.toNat - 48) (by unfold B; omega)
      have ⟨s1, s2⟩ := add_spec m1 d1
      have ⟨i1, i2⟩ := ih s1
      simp only [parseLoop, hd, if_true]
      constructor
      · rintro ⟨x, hx, hxd⟩
        rcases List.mem_cons.1 hx with rfl | hx
        · rw [hd] at hxd; cases hxd
        · exact i1 ⟨x, hx, hxd⟩
      · intro hall
        obtain ⟨r, r1, r2, r3⟩ := i2 (fun x hx => hall x (List.mem_cons_of_mem _ hx))
        refine ⟨r, r1, r2, ?_⟩
        rw [r3, s2, m2, t2, d2]
        have := digitsVal_append [c] t
        simp only [List.singleton_append] at this
        rw [this]
        have e : digitsVal [c] = c.toNat - 48 := by simp [digitsVal]
        rw [e, List.length_cons, pow_succ]
        push_cast
        ring
    · simp only [parseLoop, hd]
      constructor
      · intro _; rfl
      · intro hall; exact absurd (hall c List.mem_cons_self) hd

/-- The value a decimal numeral with optional sign denotes, if it is one. -/
theorem parse_spec (s : List Char) :
    (((splitSign s).2 = [] ∨ ∃ c ∈ (splitSign s).2, c.isDigit = false) → parseDecimal s = none) ∧
    ((splitSign s).2 ≠ [] → (∀ c ∈ (splitSign s).2, c.isDigit = true) →
      ∃ r, parseDecimal s = some r ∧ Wf r ∧
        r.toInt = if (splitSign s).1 then -(digitsVal (splitSign s).2 : Int) else digitsVal (splitSign s).2) := by
  unfold parseDecimal
  generalize splitSign s = nd
  have ⟨p1, p2⟩ := parseLoop_spec (l := nd.2) wf_zero
  simp only
  constructor
  · intro h
    by_cases he : nd.2 = []
    · rw [if_pos he]
    · rw [if_neg he, p1 (by simpa [he] using h)]
  · intro hne hall
    obtain ⟨r, r1, r2, r3⟩ := p2 hall
    rw [if_neg hne, r1]
    rw [toInt_zero, Int.zero_mul, Int.zero_add] at r3
    cases nd.1 with
    | false => exact ⟨r, by simp, r2, by simpa using r3⟩
    | true =>
      have ⟨n1, n2⟩ := negated_spec r2
      exact ⟨_, by simp, n1, by simp [n2, r3]⟩

theorem splitSign_digits {t : List Char} (h : ∀ c ∈ t, c.isDigit = true) : splitSign t = (false, t) := by
  unfold splitSign
  split
  · exact absurd (h '-' List.mem_cons_self) (by decide)
  · exact absurd (h '+' List.mem_cons_self) (by decide)
  · rfl

end Verif.Num.BigInt
