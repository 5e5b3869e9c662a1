import Verif.Num.RationalText
import Mathlib.Data.Complex.Basic
import Mathlib.Algebra.GroupWithZero.Basic
/-! # `Complex` and `Modular` — models of numeric.rs:1085-1445 -/
namespace Verif.Num

/-- The square-and-multiply loop of `Complex::pow` (numeric.rs:1204-1216) and `Modular::pow`
(numeric.rs:1404-1414), over the multiplication `mul`. Fuel bounds the number of iterations; `sqPow_spec`
asks for at least `e`. -/
def sqPow {α : Type _} (mul : α → α → α) : Nat → Nat → α → α → α
  | 0, _, result, _ => result
  | fuel + 1, e, result, base =>
    if e = 0 then result
    else
      let result := if e % 2 = 1 then mul result base else result
      let e := e / 2
      sqPow mul fuel e result (if e > 0 then mul base base else base)

theorem sqPow_spec {α M : Type _} [Monoid M] {mul : α → α → α} {P : α → Prop} {v : α → M}
    (h : ∀ a b, P a → P b → P (mul a b) ∧ v (mul a b) = v a * v b) {fuel e : Nat} (hf : e ≤ fuel)
    {r b : α} (hr : P r) (hb : P b) : P (sqPow mul fuel e r b) ∧ v (sqPow mul fuel e r b) = v r * v b ^ e := by
  induction fuel generalizing e r b with
  | zero => have : e = 0 := by omega
            subst this; simp [sqPow, hr]
  | succ fuel ih =>
    rw [sqPow]
    by_cases h0 : e = 0
    · rw [if_pos h0]; subst h0; simp [hr]
    · rw [if_neg h0]
      simp only
      have key : ∀ r', P r' → v r' = v r * v b ^ (e % 2) →
          P (sqPow mul fuel (e / 2) r' (if e / 2 > 0 then mul b b else b)) ∧
          v (sqPow mul fuel (e / 2) r' (if e / 2 > 0 then mul b b else b)) = v r * v b ^ e := by
        intro r' hr' hv
        by_cases h2 : e / 2 > 0
        · rw [if_pos h2]
          have ⟨i1, i2⟩ := ih (e := e / 2) (by omega) hr' (h b b hb hb).1
          refine ⟨i1, ?_⟩
          rw [i2, hv, (h b b hb hb).2, ← pow_two, ← pow_mul, mul_assoc, ← pow_add]
          congr 2; omega
        · rw [if_neg h2]
          have ⟨i1, i2⟩ := ih (e := e / 2) (by omega) hr' hb
          refine ⟨i1, ?_⟩
          have : e / 2 = 0 := by omega
          rw [i2, hv, this, pow_zero, mul_one]
          congr 2; omega
      by_cases h1 : e % 2 = 1
      · rw [if_pos h1]
        have ⟨m1, m2⟩ := h r b hr hb
        exact key _ m1 (by rw [m2, h1, pow_one])
      · rw [if_neg h1]
        exact key _ hr (by have : e % 2 = 0 := by omega
                           rw [this, pow_zero, mul_one])

/-- `struct Complex` (numeric.rs:1102-1106). -/
structure Complex where
  re : Rational
  im : Rational
deriving DecidableEq

namespace Complex

/-- `Complex::from_rational` (numeric.rs:1114-1116). -/
def ofRational (r : Rational) : Complex := ⟨r, Rational.zero⟩
/-- `Complex::zero` (numeric.rs:1122-1124). -/
def zero : Complex := ⟨Rational.zero, Rational.zero⟩
/-- `Complex::one` (numeric.rs:1126-1128). -/
def one : Complex := ofRational (Rational.ofInt 1)
/-- `Complex::i` (numeric.rs:1131-1133). -/
def i : Complex := ⟨Rational.zero, Rational.one⟩
/-- `Complex::is_zero` (numeric.rs:1143-1145). -/
def isZero (a : Complex) : Bool := a.re.isZero && a.im.isZero
/-- `Complex::is_real` (numeric.rs:1148-1150). -/
def isReal (a : Complex) : Bool := a.im.isZero
/-- `Complex::conjugate` (numeric.rs:1153-1155). -/
def conjugate (a : Complex) : Complex := ⟨a.re, a.im.negated⟩
/-- `Complex::norm_sqr` (numeric.rs:1158-1160). -/
def normSqr (a : Complex) : Rational := (a.re.mul a.re).add (a.im.mul a.im)
/-- `Complex::negated` (numeric.rs:1168-1170). -/
def negated (a : Complex) : Complex := ⟨a.re.negated, a.im.negated⟩
/-- `Complex::add` (numeric.rs:1172-1174). -/
def add (a b : Complex) : Complex := ⟨a.re.add b.re, a.im.add b.im⟩
/-- `Complex::sub` (numeric.rs:1176-1178). -/
def sub (a b : Complex) : Complex := ⟨a.re.sub b.re, a.im.sub b.im⟩
/-- `Complex::mul` (numeric.rs:1181-1184). -/
def mul (a b : Complex) : Complex :=
  ⟨(a.re.mul b.re).sub (a.im.mul b.im), (a.re.mul b.im).add (a.im.mul b.re)⟩
/-- `Complex::recip` (numeric.rs:1187-1194). -/
def recip (a : Complex) : Option Complex :=
  let n := a.normSqr
  if n.isZero then none
  else
    let inv := Rational.expect n.recip
    some ⟨a.re.mul inv, a.im.negated.mul inv⟩
/-- `Complex::div` (numeric.rs:1197-1199). -/
def div (a b : Complex) : Option Complex := b.recip.map (fun r => a.mul r)
/-- `Complex::pow` (numeric.rs:1203-1220). The outer `none` is the overflow panic of `-exp` at `i32::MIN`
(in a build without overflow checks the recursion does not terminate). -/
def pow (a : Complex) (exp : Int) : Option (Option Complex) :=
  if exp < 0 then
    match a.recip with
    | none => some none
    | some r => if exp = -2147483648 then none else some (some (sqPow mul exp.natAbs exp.natAbs one r))
  else some (some (sqPow mul exp.natAbs exp.natAbs one a))

/-- `bytes().enumerate().rev().find(sign)` on a suffix (numeric.rs:1237-1242): the text before and from the
last sign. -/
def lastSign : List Char → Option (List Char × List Char)
  | [] => none
  | c :: t =>
    match lastSign t with
    | some (a, b) => some (c :: a, b)
    | none => if c = '+' ∨ c = '-' then some ([], c :: t) else none

/-- The split of the body at the last sign that is not leading (numeric.rs:1237-1247). -/
def splitBody : List Char → List Char × List Char
  | [] => ([], [])
  | c :: t => match lastSign t with
    | some (a, b) => (c :: a, b)
    | none => ([], c :: t)

/-- The coefficient in front of `i` (numeric.rs:1249-1253). -/
def parseIm (ws : Char → Bool) (s : List Char) : Option Rational :=
  if s = [] ∨ s = ['+'] then some Rational.one
  else if s = ['-'] then some (Rational.ofInt (-1))
  else Rational.parse ws s

/-- The real part in front of the split (numeric.rs:1248). -/
def parseRe (ws : Char → Bool) (s : List Char) : Option Rational :=
  if s = [] then some Rational.zero else Rational.parse ws s

/-- `Complex::parse` (numeric.rs:1224-1256). -/
def parse (ws : Char → Bool) (s : List Char) : Option Complex :=
  let s := trim ws s
  if s = [] then none
  else if s.getLast? ≠ some 'i' then (Rational.parse ws s).map ofRational
  else
    let p := splitBody s.dropLast
    match parseRe ws p.1 with
    | none => none
    | some re => match parseIm ws p.2 with
      | none => none
      | some im => some ⟨re, im⟩

/-- `impl Display for Complex` (numeric.rs:1259-1283). -/
def display (a : Complex) : List Char :=
  if a.im.isZero then a.re.display
  else
    let mag := a.im.abs
    let unit := decide (mag = Rational.one)
    if a.re.isZero then
      if a.im.isNegative then (if unit then ['-', 'i'] else '-' :: mag.display ++ ['i'])
      else if unit then ['i']
      else mag.display ++ ['i']
    else
      let sign := if a.im.isNegative then '-' else '+'
      if unit then a.re.display ++ [sign, 'i'] else a.re.display ++ sign :: mag.display ++ ['i']

/-- Both parts are reduced fractions. -/
def Wf (a : Complex) : Prop := a.re.Wf ∧ a.im.Wf

/-- The complex number denoted. -/
noncomputable def value (a : Complex) : ℂ := ⟨(a.re.toRat : ℝ), (a.im.toRat : ℝ)⟩

/-! helper lemmas -/

theorem eq_of_value {a b : Complex} (ha : a.Wf) (hb : b.Wf) (h : a.value = b.value) : a = b := by
  have h1 := congrArg _root_.Complex.re h
  have h2 := congrArg _root_.Complex.im h
  simp only [value] at h1 h2
  have e1 := Rational.eq_of_toRat ha.1 hb.1 (by exact_mod_cast h1)
  have e2 := Rational.eq_of_toRat ha.2 hb.2 (by exact_mod_cast h2)
  cases a; cases b; simp_all

theorem add_spec {a b : Complex} (ha : a.Wf) (hb : b.Wf) : (a.add b).Wf ∧ (a.add b).value = a.value + b.value := by
  have ⟨r1, r2⟩ := Rational.add_spec ha.1 hb.1
  have ⟨i1, i2⟩ := Rational.add_spec ha.2 hb.2
  refine ⟨⟨r1, i1⟩, ?_⟩
  apply _root_.Complex.ext <;> simp [value, add, r2, i2]

theorem sub_spec {a b : Complex} (ha : a.Wf) (hb : b.Wf) : (a.sub b).Wf ∧ (a.sub b).value = a.value - b.value := by
  have ⟨r1, r2⟩ := Rational.sub_spec ha.1 hb.1
  have ⟨i1, i2⟩ := Rational.sub_spec ha.2 hb.2
  refine ⟨⟨r1, i1⟩, ?_⟩
  apply _root_.Complex.ext <;> simp [value, sub, r2, i2]

theorem negated_spec {a : Complex} (ha : a.Wf) : a.negated.Wf ∧ a.negated.value = -a.value := by
  have ⟨r1, r2⟩ := Rational.negated_spec ha.1
  have ⟨i1, i2⟩ := Rational.negated_spec ha.2
  refine ⟨⟨r1, i1⟩, ?_⟩
  apply _root_.Complex.ext <;> simp [value, negated, r2, i2]

theorem conjugate_spec {a : Complex} (ha : a.Wf) :
    a.conjugate.Wf ∧ a.conjugate.value = ⟨a.value.re, -a.value.im⟩ := by
  have ⟨i1, i2⟩ := Rational.negated_spec ha.2
  refine ⟨⟨ha.1, i1⟩, ?_⟩
  apply _root_.Complex.ext <;> simp [value, conjugate, i2]

theorem mul_spec {a b : Complex} (ha : a.Wf) (hb : b.Wf) : (a.mul b).Wf ∧ (a.mul b).value = a.value * b.value := by
  have ⟨w1, v1⟩ := Rational.mul_spec ha.1 hb.1
  have ⟨w2, v2⟩ := Rational.mul_spec ha.2 hb.2
  have ⟨w3, v3⟩ := Rational.mul_spec ha.1 hb.2
  have ⟨w4, v4⟩ := Rational.mul_spec ha.2 hb.1
  have ⟨w5, v5⟩ := Rational.sub_spec w1 w2
  have ⟨w6, v6⟩ := Rational.add_spec w3 w4
  refine ⟨⟨w5, w6⟩, ?_⟩
  apply _root_.Complex.ext <;> simp [value, mul, v1, v2, v3, v4, v5, v6]

theorem normSqr_spec {a : Complex} (ha : a.Wf) :
    a.normSqr.Wf ∧ a.normSqr.toRat = a.re.toRat * a.re.toRat + a.im.toRat * a.im.toRat := by
  have ⟨w1, v1⟩ := Rational.mul_spec ha.1 ha.1
  have ⟨w2, v2⟩ := Rational.mul_spec ha.2 ha.2
  have ⟨w3, v3⟩ := Rational.add_spec w1 w2
  exact ⟨w3, by rw [normSqr, v3, v1, v2]⟩

theorem value_eq_zero {a : Complex} (ha : a.Wf) : a.value = 0 ↔ a.normSqr.toRat = 0 := by
  rw [(normSqr_spec ha).2]
  constructor
  · intro h
    have h1 := congrArg _root_.Complex.re h
    have h2 := congrArg _root_.Complex.im h
    simp only [value, _root_.Complex.zero_re, _root_.Complex.zero_im] at h1 h2
    have e1 : a.re.toRat = 0 := by exact_mod_cast h1
    have e2 : a.im.toRat = 0 := by exact_mod_cast h2
    rw [e1, e2]; ring
  · intro h
    have h1 := mul_self_nonneg a.re.toRat
    have h2 := mul_self_nonneg a.im.toRat
    have e1 : a.re.toRat = 0 := mul_self_eq_zero.1 (by linarith)
    have e2 : a.im.toRat = 0 := mul_self_eq_zero.1 (by linarith)
    apply _root_.Complex.ext <;> simp [value, e1, e2]

theorem recip_spec {a : Complex} (ha : a.Wf) :
    (a.value = 0 → a.recip = none) ∧ (a.value ≠ 0 → ∃ r, a.recip = some r ∧ r.Wf ∧ r.value = a.value⁻¹) := by
  have ⟨n1, n2⟩ := normSqr_spec ha
  constructor
  · intro h
    have h0 := (Rational.num_eq_zero n1).2 ((value_eq_zero ha).1 h)
    unfold recip
    simp only
    rw [if_pos (by simp [Rational.isZero, h0])]
  · intro h
    have h0 : a.normSqr.toRat ≠ 0 := fun hc => h ((value_eq_zero ha).2 hc)
    have h1 : a.normSqr.num ≠ 0 := fun hc => h0 ((Rational.num_eq_zero n1).1 hc)
    obtain ⟨inv, e1, e2, e3⟩ := (Rational.recip_spec n1).2 h0
    have ⟨g1, g2⟩ := Rational.negated_spec ha.2
    have ⟨w1, v1⟩ := Rational.mul_spec ha.1 e2
    have ⟨w2, v2⟩ := Rational.mul_spec g1 e2
    unfold recip
    simp only
    rw [if_neg (by simp [Rational.isZero, h1]), e1]
    refine ⟨_, rfl, ⟨w1, w2⟩, ?_⟩
    have hns : (_root_.Complex.normSq a.value : ℝ) = ((a.normSqr.toRat : ℚ) : ℝ) := by
      rw [n2]; simp [_root_.Complex.normSq, value]
    apply _root_.Complex.ext
    · rw [_root_.Complex.inv_re, hns]
      simp only [value, Rational.expect, Option.getD_some]
      rw [v1, e3]; push_cast; rw [div_eq_mul_inv]
    · rw [_root_.Complex.inv_im, hns]
      simp only [value, Rational.expect, Option.getD_some]
      rw [v2, e3, g2]; push_cast; rw [div_eq_mul_inv]

theorem div_spec {a b : Complex} (ha : a.Wf) (hb : b.Wf) :
    (b.value = 0 → a.div b = none) ∧
    (b.value ≠ 0 → ∃ r, a.div b = some r ∧ r.Wf ∧ r.value = a.value / b.value) := by
  have ⟨r1, r2⟩ := recip_spec hb
  constructor
  · intro h; rw [div, r1 h]; rfl
  · intro h
    obtain ⟨r, e1, e2, e3⟩ := r2 h
    have ⟨m1, m2⟩ := mul_spec ha e2
    exact ⟨_, by rw [div, e1]; rfl, m1, by rw [m2, e3, div_eq_mul_inv]⟩

theorem one_spec : one.Wf ∧ one.value = 1 := by
  refine ⟨⟨Rational.wf_ofInt 1, Rational.wf_zero⟩, ?_⟩
  apply _root_.Complex.ext <;> simp [one, ofRational, value, Rational.toRat_ofInt]

theorem pow_spec {a : Complex} (ha : a.Wf) {e : Int} (he : -2147483648 < e) :
    (a.value = 0 ∧ e < 0 → a.pow e = some none) ∧
    (¬ (a.value = 0 ∧ e < 0) → ∃ r, a.pow e = some (some r) ∧ r.Wf ∧ r.value = a.value ^ e) := by
  have hm : ∀ a b : Complex, a.Wf → b.Wf → (mul a b).Wf ∧ (mul a b).value = a.value * b.value :=
    fun a b ha hb => mul_spec ha hb
  constructor
  · rintro ⟨h0, hn⟩
    rw [pow, if_pos hn, (recip_spec ha).1 h0]
  · intro h
    by_cases hn : e < 0
    · have h0 : a.value ≠ 0 := fun hc => h ⟨hc, hn⟩
      obtain ⟨r, e1, e2, e3⟩ := (recip_spec ha).2 h0
      have ⟨s1, s2⟩ := sqPow_spec hm (le_refl e.natAbs) one_spec.1 e2
      refine ⟨_, by rw [pow, if_pos hn, e1]; simp only; rw [if_neg (by omega)], s1, ?_⟩
      rw [s2, one_spec.2, one_mul, e3]
      obtain ⟨n, rfl⟩ : ∃ n : Nat, e = -(n : Int) := ⟨e.natAbs, by omega⟩
      rw [zpow_neg, zpow_natCast, Int.natAbs_neg, Int.natAbs_natCast, inv_pow]
    · have ⟨s1, s2⟩ := sqPow_spec hm (le_refl e.natAbs) one_spec.1 ha
      refine ⟨_, by rw [pow, if_neg hn], s1, ?_⟩
      rw [s2, one_spec.2, one_mul]
      obtain ⟨n, rfl⟩ : ∃ n : Nat, e = (n : Int) := ⟨e.natAbs, by omega⟩
      rw [zpow_natCast, Int.natAbs_natCast]

/-! Text -/

/-- Characters of a printed fraction. -/
theorem mem_rational_display {r : Rational} {c : Char} (h : c ∈ r.display) :
    c.isDigit = true ∨ c = '-' ∨ c = '/' := by
  unfold Rational.display at h
  split at h
  · rcases mem_showInt h with h | h
    · exact Or.inr (Or.inl h)
    · exact Or.inl h
  · rw [List.mem_append, List.mem_cons] at h
    rcases h with h | h | h
    · rcases mem_showInt h with h | h
      · exact Or.inr (Or.inl h)
      · exact Or.inl h
    · exact Or.inr (Or.inr h)
    · rcases mem_showInt h with h | h
      · exact Or.inr (Or.inl h)
      · exact Or.inl h

theorem mem_showNat {n : Int} (hn : 0 ≤ n) {c : Char} (h : c ∈ showInt n) : c.isDigit = true := by
  unfold showInt at h
  rw [if_neg (by omega)] at h
  exact isDigit_dec h

theorem mem_abs_display {r : Rational} (hr : r.Wf) {c : Char} (h : c ∈ r.abs.display) :
    c.isDigit = true ∨ c = '/' := by
  unfold Rational.display Rational.abs at h
  simp only at h
  split at h
  · exact Or.inl (mem_showNat (abs_nonneg _) h)
  · rw [List.mem_append, List.mem_cons] at h
    rcases h with h | h | h
    · exact Or.inl (mem_showNat (abs_nonneg _) h)
    · exact Or.inr h
    · exact Or.inl (mem_showNat hr.pos.le h)

theorem rational_display_ne (r : Rational) : r.display ≠ [] := by
  have hs : ∀ n, showInt n ≠ [] := fun n => by
    unfold showInt; simp [dec_ne_nil]
  unfold Rational.display
  split
  · exact hs _
  · simp

theorem lastSign_none {s : List Char} (h : ∀ c ∈ s, c ≠ '+' ∧ c ≠ '-') : lastSign s = none := by
  induction s with
  | nil => rfl
  | cons c t ih =>
    rw [lastSign, ih (fun x hx => h x (List.mem_cons_of_mem _ hx))]
    have := h c List.mem_cons_self
    simp [this.1, this.2]

theorem lastSign_append {a b : List Char} {c : Char} (hc : c = '+' ∨ c = '-')
    (h : ∀ c ∈ b, c ≠ '+' ∧ c ≠ '-') : lastSign (a ++ c :: b) = some (a, c :: b) := by
  induction a with
  | nil => rw [List.nil_append, lastSign, lastSign_none h]; simp [hc]
  | cons x t ih => rw [List.cons_append, lastSign, ih]

theorem splitBody_append {a b : List Char} {c : Char} (ha : a ≠ []) (hc : c = '+' ∨ c = '-')
    (h : ∀ c ∈ b, c ≠ '+' ∧ c ≠ '-') : splitBody (a ++ c :: b) = (a, c :: b) := by
  cases a with
  | nil => exact absurd rfl ha
  | cons x t => rw [List.cons_append, splitBody, lastSign_append hc h]

theorem splitBody_none {a : List Char} (h : ∀ c ∈ a.tail, c ≠ '+' ∧ c ≠ '-') : splitBody a = ([], a) := by
  cases a with
  | nil => rfl
  | cons x t => rw [splitBody, lastSign_none (s := t) h]

/-- A fraction printed with a sign in front reads back as that signed fraction. -/
theorem parse_signed {ws : Char → Bool} (hw : NumeralChars ws) (hplus : ws '+' = false) {r : Rational} (h : r.Wf) (neg : Bool) :
    Rational.parse ws ((if neg then '-' else '+') :: r.abs.display) =
      some (if neg then r.abs.negated else r.abs) := by
  have habs := (Rational.abs_spec h).1
  set m := r.abs with hm
  have hn : 0 ≤ m.num := by rw [hm]; exact abs_nonneg _
  have hsig : ∀ {n : Int}, 0 ≤ n → parseInt ((if neg then '-' else '+') :: showInt n) = some (if neg then -n else n) := by
    intro n hn
    have e : showInt n = dec n.natAbs := by unfold showInt; rw [if_neg (by omega)]; rfl
    rw [e]
    have hs : signOf ((if neg then '-' else '+') :: dec n.natAbs) = (neg, dec n.natAbs) := by
      cases neg <;> rfl
    unfold parseInt
    rw [hs]
    simp only
    rw [if_neg (by simp [dec_ne_nil, allDigits_iff.2 (fun c hc => isDigit_dec hc)]), digitsVal_dec]
    cases neg <;> simp <;> omega
  have hsw : ws (if neg then '-' else '+') = false := by cases neg <;> simp [hplus, hw.minus]
  have hdisp : ∀ c ∈ (if neg then '-' else '+') :: m.display, ws c = false := by
    intro c hc
    rcases List.mem_cons.1 hc with rfl | hc
    · exact hsw
    · rcases mem_rational_display hc with h | rfl | rfl
      · exact hw.digit c h
      · exact hw.minus
      · exact hw.slash
  have hsl : ('/' : Char) ≠ (if neg then '-' else '+') := by cases neg <;> decide
  unfold Rational.parse
  simp only
  rw [trim_id hdisp]
  unfold Rational.display
  by_cases hi : m.isInteger = true
  · rw [if_pos hi, splitOnce_none (by
      rw [List.mem_cons]; rintro (hc | hc)
      · exact hsl hc
      · exact Rational.slash_not_mem _ hc)]
    simp only [hsig hn, Option.map_some]
    simp only [Rational.isInteger, decide_eq_true_eq] at hi
    cases neg
    · simp only [Bool.false_eq_true, if_false, Rational.ofInt, ← hi]
    · simp only [if_true, Rational.ofInt, ← hi, Rational.negated]
  · rw [if_neg hi, ← List.cons_append, splitOnce_append (by
      rw [List.mem_cons]; rintro (hc | hc)
      · exact hsl hc
      · exact Rational.slash_not_mem _ hc)]
    simp only
    have t1 : trim ws ((if neg then '-' else '+') :: showInt m.num) = (if neg then '-' else '+') :: showInt m.num :=
      trim_id (fun c hc => by
        rcases List.mem_cons.1 hc with rfl | hc
        · exact hsw
        · exact hw.showInt hc)
    rw [t1, hsig hn]
    simp only
    rw [trim_id (fun c hc => hw.showInt hc), parseInt_showInt]
    simp only
    obtain ⟨r', h1, h2, h3⟩ := Rational.new_spec (n := if neg then -m.num else m.num) habs.pos.ne'
    rw [h1]
    congr 1
    cases neg
    · exact Rational.eq_of_toRat h2 habs h3
    · refine Rational.eq_of_toRat h2 (Rational.negated_spec habs).1 ?_
      rw [h3]; simp [Rational.toRat, Rational.negated]

theorem abs_neg_cases {r : Rational} : (if r.isNegative then r.abs.negated else r.abs) = r := by
  cases r with
  | mk n d =>
    simp only [Rational.isNegative, Rational.abs, Rational.negated, decide_eq_true_eq]
    split
    · rw [abs_of_neg ‹_›]; simp
    · rw [abs_of_nonneg (by omega)]

theorem parse_display {ws : Char → Bool} (hw : NumeralChars ws) (hplus : ws '+' = false) (hi : ws 'i' = false)
    {a : Complex} (h : a.Wf) : parse ws a.display = some a := by
  have rws : ∀ {r : Rational} {c}, c ∈ r.display → ws c = false := by
    intro r c hc
    rcases mem_rational_display hc with h | rfl | rfl
    · exact hw.digit c h
    · exact hw.minus
    · exact hw.slash
  have ri : ∀ {r : Rational}, r.display.getLast? ≠ some 'i' := by
    intro r hc
    rcases mem_rational_display (List.mem_of_getLast? hc) with h | h | h
    · exact absurd h (by decide)
    · exact absurd h (by decide)
    · exact absurd h (by decide)
  by_cases him : a.im.isZero = true
  · -- a real number
    have hz : a.im = Rational.zero := by
      simp only [Rational.isZero, decide_eq_true_eq] at him
      refine Rational.eq_of_toRat h.2 Rational.wf_zero ?_
      rw [(Rational.num_eq_zero h.2).1 him]; simp
    unfold parse display
    simp only
    rw [if_pos him, trim_id (fun c hc => rws hc), if_neg (rational_display_ne _), if_pos ri,
      Rational.parse_display hw h.1]
    simp only [Option.map_some, ofRational]
    rw [← hz]
  -- the text is `body ++ ['i']`
  have key : ∀ {body : List Char} {p q : List Char}, a.display = body ++ ['i'] →
      (∀ c ∈ body, ws c = false) → splitBody body = (p, q) → parseRe ws p = some a.re → parseIm ws q = some a.im →
      parse ws a.display = some a := by
    intro body p q hd hb hs hp hq
    unfold parse
    simp only
    rw [hd, trim_id (by
      intro c hc
      rcases List.mem_append.1 hc with hc | hc
      · exact hb c hc
      · simp at hc; subst hc; exact hi), if_neg (by simp), if_neg (by simp), List.dropLast_concat, hs]
    simp only
    rw [hp]
    simp only
    rw [hq]
  have hnosign : ∀ c ∈ a.im.abs.display, c ≠ '+' ∧ c ≠ '-' := by
    intro c hc
    rcases mem_abs_display h.2 hc with h | rfl
    · exact ⟨fun e => by subst e; exact absurd h (by decide), fun e => by subst e; exact absurd h (by decide)⟩
    · decide
  have hunit : a.im.abs = Rational.one → a.im = if a.im.isNegative then Rational.ofInt (-1) else Rational.one := by
    intro hu
    have := abs_neg_cases (r := a.im)
    rw [hu] at this
    rw [← this]
    simp only [Rational.negated, Rational.one, Rational.ofInt]
    cases h : a.im.isNegative <;> simp [Rational.isNegative]
  have hmagim : ∀ {neg : Bool}, a.im.isNegative = neg → parseIm ws ((if neg then '-' else '+') :: a.im.abs.display) = some a.im := by
    intro neg hneg
    have hne := rational_display_ne a.im.abs
    unfold parseIm
    rw [if_neg (by simp [hne]), if_neg (by simp [hne]), parse_signed hw hplus h.2, ← hneg, abs_neg_cases]
  unfold display at key
  rw [if_neg him] at key
  simp only at key
  by_cases hre : a.re.isZero = true
  · have hz : a.re = Rational.zero := by
      simp only [Rational.isZero, decide_eq_true_eq] at hre
      refine Rational.eq_of_toRat h.1 Rational.wf_zero ?_
      rw [(Rational.num_eq_zero h.1).1 hre]; simp
    rw [if_pos hre] at key
    have hp : parseRe ws [] = some a.re := by rw [hz]; rfl
    by_cases hneg : a.im.isNegative = true
    · rw [if_pos hneg] at key
      by_cases hu : a.im.abs = Rational.one
      · rw [if_pos (by simpa using hu)] at key
        have him' : parseIm ws ['-'] = some a.im := by rw [hunit hu, hneg]; rfl
        have := key (body := ['-']) (p := []) (q := ['-']) rfl (by simp [hw.minus]) (splitBody_none (by simp)) hp him'
        unfold display
        simp only
        rw [if_neg him, if_pos hre, if_pos hneg, if_pos (by simpa using hu)]
        exact this
      · rw [if_neg (by simpa using hu)] at key
        have := key (body := '-' :: a.im.abs.display) (p := []) (q := '-' :: a.im.abs.display) rfl
          (by intro c hc
              rcases List.mem_cons.1 hc with rfl | hc
              · exact hw.minus
              · exact rws hc) (splitBody_none (by simpa using hnosign)) hp (hmagim (neg := true) hneg)
        unfold display
        simp only
        rw [if_neg him, if_pos hre, if_pos hneg, if_neg (by simpa using hu)]
        exact this
    · rw [if_neg hneg] at key
      by_cases hu : a.im.abs = Rational.one
      · rw [if_pos (by simpa using hu)] at key
        have him' : parseIm ws [] = some a.im := by
          rw [hunit hu, if_neg hneg]; rfl
        have := key (body := []) (p := []) (q := []) rfl (by simp) rfl hp him'
        unfold display
        simp only
        rw [if_neg him, if_pos hre, if_neg hneg, if_pos (by simpa using hu)]
        exact this
      · rw [if_neg (by simpa using hu)] at key
        have hab : a.im.abs = a.im := by
          have := abs_neg_cases (r := a.im); rwa [if_neg hneg] at this
        have him' : parseIm ws a.im.abs.display = some a.im := by
          unfold parseIm
          have h1 : a.im.abs.display ≠ ['+'] := fun e => (hnosign '+' (by rw [e]; simp)).1 rfl
          have h2 : a.im.abs.display ≠ ['-'] := fun e => (hnosign '-' (by rw [e]; simp)).2 rfl
          rw [if_neg (by simp [rational_display_ne, h1]), if_neg h2,
            Rational.parse_display hw (Rational.abs_spec h.2).1, hab]
        have := key (body := a.im.abs.display) (p := []) (q := a.im.abs.display) rfl
          (fun c hc => rws hc) (splitBody_none (fun c hc => hnosign c (List.mem_of_mem_tail hc))) hp him'
        unfold display
        simp only
        rw [if_neg him, if_pos hre, if_neg hneg, if_neg (by simpa using hu)]
        exact this
  · rw [if_neg hre] at key
    have hp : parseRe ws a.re.display = some a.re := by
      unfold parseRe; rw [if_neg (rational_display_ne _), Rational.parse_display hw h.1]
    by_cases hu : a.im.abs = Rational.one
    · rw [if_pos (by simpa using hu)] at key
      have him' : parseIm ws [if a.im.isNegative = true then '-' else '+'] = some a.im := by
        have := hunit hu
        by_cases hneg : a.im.isNegative = true
        · rw [if_pos hneg] at this
          rw [if_pos hneg, this]; rfl
        · rw [if_neg hneg] at this
          rw [if_neg hneg, this]; rfl
      have := key (body := a.re.display ++ [if a.im.isNegative = true then '-' else '+']) (by simp)
        (by intro c hc
            rcases List.mem_append.1 hc with hc | hc
            · exact rws hc
            · simp only [List.mem_singleton] at hc; subst hc; split; exact hw.minus; exact hplus)
        (splitBody_append (rational_display_ne _) (by split <;> simp) (by simp)) hp him'
      unfold display
      simp only
      rw [if_neg him, if_neg hre, if_pos (by simpa using hu)]
      exact this
    · rw [if_neg (by simpa using hu)] at key
      have := key (body := a.re.display ++ (if a.im.isNegative = true then '-' else '+') :: a.im.abs.display) (by simp)
        (by intro c hc
            rcases List.mem_append.1 hc with hc | hc
            · exact rws hc
            · rcases List.mem_cons.1 hc with rfl | hc
              · split; exact hw.minus; exact hplus
              · exact rws hc)
        (splitBody_append (rational_display_ne _) (by split <;> simp) hnosign) hp (hmagim rfl)
      unfold display
      simp only
      rw [if_neg him, if_neg hre, if_neg (by simpa using hu)]
      exact this

end Complex

/-! ## Modular -/

/-- One pass of `bigint_egcd` (numeric.rs:1305-1320); the state is `(old_r, r, old_s, s, old_t, t)`. The fuel
suffices by `egcd_spec`. -/
def egcdLoop : Nat → Int → Int → Int → Int → Int → Int → Int × Int × Int
  | 0, oldR, _, oldS, _, oldT, _ => (oldR, oldS, oldT)
  | fuel + 1, oldR, r, oldS, s, oldT, t =>
    if r = 0 then (oldR, oldS, oldT)
    else
      let q := oldR.tdiv r
      egcdLoop fuel r (oldR - q * r) s (oldS - q * s) t (oldT - q * t)

/-- `bigint_egcd` (numeric.rs:1305-1320). -/
def bigintEgcd (a b : Int) : Int × Int × Int := egcdLoop (b.natAbs + 1) a b 1 0 0 1

/-- `struct Modular` (numeric.rs:1331-1335). -/
structure Modular where
  value : Int
  modulus : Int
deriving DecidableEq

/-- `mod_reduce` (numeric.rs:1338-1345). -/
def modReduce (value modulus : Int) : Int :=
  let r := value.tmod modulus
  if r < 0 then r + modulus else r

namespace Modular

/-- `Modular::new` (numeric.rs:1349-1355). -/
def new (value modulus : Int) : Option Modular :=
  if modulus = 0 ∨ modulus < 0 then none else some ⟨modReduce value modulus, modulus⟩

/-- `.expect("modulus ..")` (numeric.rs:1398, 1403, 1407, 1411): a panic is modelled as an out-of-range value. -/
def expect (o : Option Modular) : Modular := o.getD ⟨-1, 0⟩

/-- `Modular::add` (numeric.rs:1376-1381). -/
def add (a b : Modular) : Option Modular := if a.modulus ≠ b.modulus then none else new (a.value + b.value) a.modulus
/-- `Modular::sub` (numeric.rs:1383-1388). -/
def sub (a b : Modular) : Option Modular := if a.modulus ≠ b.modulus then none else new (a.value - b.value) a.modulus
/-- `Modular::mul` (numeric.rs:1390-1395). -/
def mul (a b : Modular) : Option Modular := if a.modulus ≠ b.modulus then none else new (a.value * b.value) a.modulus
/-- `Modular::negated` (numeric.rs:1398-1400). -/
def negated (a : Modular) : Modular := expect (new (-a.value) a.modulus)
/-- `Modular::pow` (numeric.rs:1403-1418). -/
def pow (a : Modular) (exp : Nat) : Modular :=
  sqPow (fun x y => expect (mul x y)) exp exp (expect (new 1 a.modulus)) a
/-- `Modular::inverse` (numeric.rs:1422-1428). -/
def inverse (a : Modular) : Option Modular :=
  let g := bigintEgcd a.value a.modulus
  if g.1 ≠ 1 then none else new g.2.1 a.modulus
/-- `Modular::div` (numeric.rs:1431-1436). -/
def div (a b : Modular) : Option Modular :=
  if a.modulus ≠ b.modulus then none
  else match b.inverse with
    | none => none
    | some i => a.mul i

/-- The documented invariant (numeric.rs:1328-1330). -/
def Wf (a : Modular) : Prop := 0 ≤ a.value ∧ a.value < a.modulus

/-! helper lemmas -/

theorem modReduce_eq {v m : Int} (hm : 0 < m) : modReduce v m = v % m := by
  unfold modReduce
  simp only
  have h1 := Int.emod_nonneg v hm.ne'
  have h2 := Int.emod_lt_of_pos v hm
  rw [Int.tmod_eq_emod]
  split <;> split <;> omega

theorem new_spec {v m : Int} (hm : 0 < m) : ∃ r, new v m = some r ∧ r.Wf ∧ r.modulus = m ∧ r.value = v % m := by
  refine ⟨⟨v % m, m⟩, ?_, ⟨Int.emod_nonneg v hm.ne', Int.emod_lt_of_pos v hm⟩, rfl, rfl⟩
  rw [new, if_neg (by omega), modReduce_eq hm]

theorem egcdLoop_spec {a b : Int} {fuel : Nat} {oldR r oldS s oldT t : Int} (ho : 0 ≤ oldR) (hr : 0 ≤ r)
    (hf : r.natAbs < fuel) (h1 : a * oldS + b * oldT = oldR) (h2 : a * s + b * t = r)
    (hg : Int.gcd oldR r = Int.gcd a b) :
    (egcdLoop fuel oldR r oldS s oldT t).1 = Int.gcd a b ∧
    a * (egcdLoop fuel oldR r oldS s oldT t).2.1 + b * (egcdLoop fuel oldR r oldS s oldT t).2.2 = Int.gcd a b := by
  induction fuel generalizing oldR r oldS s oldT t with
  | zero => omega
  | succ fuel ih =>
    rw [egcdLoop]
    by_cases h0 : r = 0
    · subst h0
      rw [if_pos rfl]
      have : oldR = Int.gcd a b := by rw [← hg]; simp [abs_of_nonneg ho]
      simp only
      exact ⟨this, by rw [h1, this]⟩
    · rw [if_neg h0]
      simp only
      have e : oldR - oldR.tdiv r * r = oldR % r := by
        rw [Int.tdiv_eq_ediv_of_nonneg ho, mul_comm]
        have := Int.mul_ediv_add_emod oldR r
        omega
      have n1 := Int.emod_nonneg oldR h0
      have n2 := Int.emod_lt_of_pos oldR (by omega : 0 < r)
      apply ih hr (by rw [e]; exact n1) (by rw [e]; omega) h2
      · rw [← h1, ← h2]; ring
      · rw [← hg, e, Int.gcd_comm oldR r, Int.gcd_comm r (oldR % r), Int.gcd_emod, Int.gcd_comm]

theorem egcd_spec {a b : Int} (ha : 0 ≤ a) (hb : 0 ≤ b) : (bigintEgcd a b).1 = Int.gcd a b ∧
    a * (bigintEgcd a b).2.1 + b * (bigintEgcd a b).2.2 = Int.gcd a b :=
  egcdLoop_spec ha hb (by omega) (by ring) (by ring) rfl

end Modular
end Verif.Num
