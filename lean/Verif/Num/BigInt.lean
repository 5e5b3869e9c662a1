import Verif.Num.Limbs
import Verif.Common.Decimal
import Mathlib.Data.Int.Basic
/-! # `BigInt` — model of `logicaffeine_base/src/numeric.rs:18-506` -/
namespace Verif.Num

/-- `enum Sign` (numeric.rs:18-22). -/
inductive Sign | neg | zero | pos
deriving DecidableEq

/-- `enum Mag` (numeric.rs:43-47). -/
inductive Mag
  | inline (x : Nat)
  | heap (v : List Nat)
deriving DecidableEq

namespace Mag
/-- `Mag::from_vec` (numeric.rs:51-60). -/
def fromVec (v : List Nat) : Mag :=
  match normalize v with
  | [] => .inline 0
  | [d] => .inline d
  | v => .heap v
/-- `Mag::limbs` (numeric.rs:63-69). -/
def limbs : Mag → List Nat
  | .inline x => if x = 0 then [] else [x]
  | .heap v => v
/-- `Mag::as_single` (numeric.rs:73-78). -/
def asSingle : Mag → Option Nat
  | .inline x => some x
  | .heap _ => none
end Mag

/-- `struct BigInt` (numeric.rs:30-34); equality is the derived, structural one. -/
structure BigInt where
  sign : Sign
  mag : Mag
deriving DecidableEq

namespace BigInt

/-- `BigInt::zero` (numeric.rs:201-203). -/
def zero : BigInt := ⟨.zero, .inline 0⟩

/-- `BigInt::from_sign_mag` (numeric.rs:207-217). -/
def fromSignMag (neg : Bool) (v : List Nat) : BigInt :=
  let mag := Mag.fromVec v
  ⟨if mag.limbs = [] then .zero else if neg then .neg else .pos, mag⟩

/-- `BigInt::from_sign_mag_u128` (numeric.rs:221-229), `m` below `2^128`. -/
def fromSignMagU128 (neg : Bool) (m : Nat) : BigInt :=
  if m = 0 then zero
  else
    let lo := m % B
    let hi := (m / B) % B
    ⟨if neg then .neg else .pos, if hi = 0 then .inline lo else .heap [lo, hi]⟩

/-- `BigInt::from_i64` (numeric.rs:232-234), `x` in the range of `i64`. -/
def fromI64 (x : Int) : BigInt := fromSignMagU128 (decide (x < 0)) x.natAbs

/-- `BigInt::from_u64` (numeric.rs:237-239), `x` below `2^64`. -/
def fromU64 (x : Nat) : BigInt := fromSignMagU128 false x

/-- `BigInt::to_i64` (numeric.rs:243-251). -/
def toI64 (a : BigInt) : Option Int :=
  match a.mag.asSingle with
  | none => none
  | some m =>
    let v : Int := if a.sign = .neg then -(m : Int) else m
    if -9223372036854775808 ≤ v ∧ v ≤ 9223372036854775807 then some v else none

/-- `BigInt::is_zero` (numeric.rs:253-255). -/
def isZero (a : BigInt) : Bool := decide (a.sign = .zero)
/-- `BigInt::is_odd` (numeric.rs:258-260). -/
def isOdd (a : BigInt) : Bool :=
  match a.mag.limbs with
  | [] => false
  | d :: _ => decide (d &&& 1 = 1)
/-- `BigInt::is_negative` (numeric.rs:276-278). -/
def isNegative (a : BigInt) : Bool := decide (a.sign = .neg)
/-- `BigInt::is_positive` (numeric.rs:280-282). -/
def isPositive (a : BigInt) : Bool := decide (a.sign = .pos)
/-- `BigInt::abs` (numeric.rs:285-287). -/
def abs (a : BigInt) : BigInt := ⟨if a.sign = .zero then .zero else .pos, a.mag⟩
/-- `BigInt::negated` (numeric.rs:290-297). -/
def negated (a : BigInt) : BigInt :=
  ⟨match a.sign with | .neg => .pos | .zero => .zero | .pos => .neg, a.mag⟩

/-- The general path of `BigInt::add` (numeric.rs:309-330). -/
def addSlow (a b : BigInt) : BigInt :=
  if a.sign = .zero then b
  else if b.sign = .zero then a
  else if a.sign = b.sign then fromSignMag (decide (a.sign = .neg)) (magAdd a.mag.limbs b.mag.limbs)
  else match magCmp a.mag.limbs b.mag.limbs with
    | .eq => zero
    | .gt => fromSignMag (decide (a.sign = .neg)) (magSub a.mag.limbs b.mag.limbs)
    | .lt => fromSignMag (decide (b.sign = .neg)) (magSub b.mag.limbs a.mag.limbs)

/-- `BigInt::add` (numeric.rs:300-330). -/
def add (a b : BigInt) : BigInt :=
  match a.mag.asSingle, b.mag.asSingle with
  | some x, some y =>
    let av : Int := if a.sign = .neg then -(x : Int) else x
    let bv : Int := if b.sign = .neg then -(y : Int) else y
    let sum := av + bv
    fromSignMagU128 (decide (sum < 0)) sum.natAbs
  | _, _ => addSlow a b

/-- `BigInt::sub` (numeric.rs:333-335). -/
def sub (a b : BigInt) : BigInt := a.add b.negated

/-- `BigInt::mul` (numeric.rs:338-348). -/
def mul (a b : BigInt) : BigInt :=
  let neg := xor (decide (a.sign = .neg)) (decide (b.sign = .neg))
  match a.mag.asSingle, b.mag.asSingle with
  | some x, some y => fromSignMagU128 neg (x * y)
  | _, _ => if a.isZero || b.isZero then zero else fromSignMag neg (magMul a.mag.limbs b.mag.limbs)

/-- `BigInt::div_rem` (numeric.rs:354-375). -/
def divRem (a b : BigInt) : Option (BigInt × BigInt) :=
  if b.isZero then none
  else
    let qNeg := xor (decide (a.sign = .neg)) (decide (b.sign = .neg))
    match a.mag.asSingle, b.mag.asSingle with
    | some x, some y =>
      some (fromSignMagU128 qNeg (x / y), fromSignMagU128 (decide (a.sign = .neg)) (x % y))
    | _, _ =>
      if a.isZero then some (zero, zero)
      else
        let qr := magDivrem a.mag.limbs b.mag.limbs
        some (fromSignMag qNeg qr.1, fromSignMag (decide (a.sign = .neg)) qr.2)

/-- The loop of `BigInt::pow` (numeric.rs:404-412). `fuel` bounds the iterations; a `u32` exponent needs at
most 32. -/
def powLoop : Nat → BigInt → BigInt → Nat → BigInt
  | 0, result, _, _ => result
  | fuel + 1, result, base, exp =>
    if exp > 0 then
      let result := if exp % 2 = 1 then result.mul base else result
      let exp := exp / 2
      powLoop fuel result (if exp > 0 then base.mul base else base) exp
    else result

/-- `BigInt::pow` (numeric.rs:401-413), `exp` below `2^32`. -/
def pow (a : BigInt) (exp : Nat) : BigInt := powLoop 33 (fromU64 1) a exp

/-- `u64::to_le_bytes`: `n` little-endian bytes. -/
def leBytes : Nat → Nat → List Nat
  | 0, _ => []
  | n + 1, x => x % 256 :: leBytes n (x / 256)

/-- `BigInt::to_le_bytes` (numeric.rs:418-425). -/
def toLeBytes (a : BigInt) : Bool × List Nat :=
  (decide (a.sign = .neg), a.mag.limbs.flatMap (leBytes 8))

/-- `u64::from_le_bytes` of a zero-padded chunk. -/
def ofLeBytes : List Nat → Nat
  | [] => 0
  | b :: t => b + 256 * ofLeBytes t

/-- The chunk loop of `from_le_bytes` (numeric.rs:431-435). -/
def chunkLimbs : Nat → List Nat → List Nat
  | 0, _ => []
  | _ + 1, [] => []
  | fuel + 1, b :: t => ofLeBytes ((b :: t).take 8) :: chunkLimbs fuel ((b :: t).drop 8)

/-- `BigInt::from_le_bytes` (numeric.rs:429-437). -/
def fromLeBytes (negative : Bool) (bytes : List Nat) : BigInt :=
  fromSignMag negative (chunkLimbs bytes.length bytes)

/-- `impl Ord for BigInt` (numeric.rs:440-457). -/
def rank : Sign → Int
  | .neg => -1
  | .zero => 0
  | .pos => 1
def cmp (a b : BigInt) : Ordering :=
  match compare (rank a.sign) (rank b.sign) with
  | .eq => match a.sign with
    | .zero => .eq
    | .pos => magCmp a.mag.limbs b.mag.limbs
    | .neg => magCmp b.mag.limbs a.mag.limbs
  | o => o

/-- The digit loop of `parse_decimal` (numeric.rs:390-395). -/
def parseLoop : List Char → BigInt → Option BigInt
  | [], acc => some acc
  | c :: t, acc =>
    if c.isDigit then parseLoop t ((acc.mul (fromU64 10)).add (fromU64 (c.toNat - 48))) else none

/-- The optional leading sign (numeric.rs:380-384). -/
def splitSign : List Char → Bool × List Char
  | '-' :: t => (true, t)
  | '+' :: t => (false, t)
  | s => (false, s)

/-- `BigInt::parse_decimal` (numeric.rs:378-397). The code scans UTF-8 bytes; every byte of a non-ASCII
character is a non-digit, so scanning characters gives the same answer. -/
def parseDecimal (s : List Char) : Option BigInt :=
  let nd := splitSign s
  if nd.2 = [] then none
  else match parseLoop nd.2 zero with
    | none => none
    | some acc => some (if nd.1 then acc.negated else acc)

/-- The chunk loop of `Display` (numeric.rs:472-481): base-10^19 digits, least significant first. -/
def chunks : Nat → BigInt → List Nat
  | 0, _ => []
  | fuel + 1, cur =>
    if cur.isZero then []
    else match cur.divRem (fromU64 10000000000000000000) with
      | none => []
      | some (q, r) => (r.mag.limbs.headD 0) :: chunks fuel q

/-- `impl Display for BigInt` (numeric.rs:465-493). The loop has no bound in the code; every division by
`10^19` drops at least 63 bits, so two iterations per limb are more than enough (`chunks_complete`). -/
def display (a : BigInt) : List Char :=
  if a.isZero then ['0']
  else
    match (chunks (2 * a.mag.limbs.length + 1) a.abs).reverse with
    | [] => []          -- `chunks.last().unwrap()` panics; unreachable
    | top :: rest => (if a.isNegative then ['-'] else []) ++ dec top ++ rest.flatMap (decPad 19)

/-! ## Meaning -/

/-- The integer denoted. -/
def toInt (a : BigInt) : Int :=
  match a.sign with
  | .neg => -(val a.mag.limbs : Int)
  | .zero => 0
  | .pos => (val a.mag.limbs : Int)

/-- The canonical form promised by the type (numeric.rs:38-42). -/
structure Wf (a : BigInt) : Prop where
  norm : Norm a.mag.limbs
  shape : match a.mag with | .inline x => x < B | .heap v => 2 ≤ v.length
  sign : a.sign = .zero ↔ a.mag.limbs = []

/-! helper lemmas -/

theorem limbs_fromVec (v : List Nat) : (Mag.fromVec v).limbs = normalize v := by
  have hl := normalize_last v
  unfold Mag.fromVec
  split
  · rename_i h; rw [h]; rfl
  · rename_i d h
    rw [h] at hl ⊢
    simp only [List.getLast?_singleton, ne_eq, Option.some.injEq] at hl
    simp [Mag.limbs, hl]
  · rename_i h; rfl

theorem fromSignMag_spec (neg : Bool) {v : List Nat} (h : Limbs v) :
    Wf (fromSignMag neg v) ∧ (fromSignMag neg v).toInt = (if neg then -(val v : Int) else val v) := by
  have hv := val_normalize v
  have hn := norm_normalize h
  have hz := val_eq_zero hn.2
  constructor
  · refine ⟨?_, ?_, ?_⟩
    · simp only [fromSignMag, limbs_fromVec]; exact hn
    · simp only [fromSignMag, Mag.fromVec]
      cases hc : normalize v with
      | nil => simp
      | cons d t =>
        rw [hc] at hn
        cases t with
        | nil => simpa using (Limbs.cons.1 hn.1).1
        | cons d' t' => simp
    · simp only [fromSignMag, limbs_fromVec]
      by_cases hc : normalize v = []
      · simp [hc]
      · rw [if_neg hc]; cases neg <;> simp [hc]
  · simp only [fromSignMag, limbs_fromVec, toInt]
    by_cases hc : normalize v = []
    · have : val v = 0 := by rw [← hv]; exact hz.2 hc
      simp [hc, this]
    · rw [if_neg hc]
      cases neg <;> simp [hv]

theorem fromSignMagU128_spec (neg : Bool) {m : Nat} (h : m < B * B) :
    Wf (fromSignMagU128 neg m) ∧ (fromSignMagU128 neg m).toInt = (if neg then -(m : Int) else m) := by
  have hB : 0 < B := by decide
  unfold fromSignMagU128
  by_cases h0 : m = 0
  · subst h0
    simp only [if_true]
    refine ⟨⟨?_, ?_, ?_⟩, ?_⟩ <;> simp [zero, Mag.limbs, norm_nil, toInt]
  · rw [if_neg h0]
    have hhi : m / B < B := Nat.div_lt_of_lt_mul h
    rw [Nat.mod_eq_of_lt hhi]
    have hdm := Nat.mod_add_div m B
    have hlo := Nat.mod_lt m hB
    simp only
    by_cases hh : m / B = 0
    · rw [if_pos hh]
      have hm : m % B = m := by rw [hh] at hdm; omega
      rw [hm]
      rw [hm] at hlo
      refine ⟨⟨?_, ?_, ?_⟩, ?_⟩
      · simp [Mag.limbs, h0, Norm, Limbs, hlo]
      · simpa using hlo
      · cases neg <;> simp [Mag.limbs, h0]
      · cases neg <;> simp [toInt, Mag.limbs, h0, val]
    · rw [if_neg hh]
      refine ⟨⟨?_, ?_, ?_⟩, ?_⟩
      · simp only [Mag.limbs, Norm, Limbs, List.mem_cons, List.not_mem_nil, or_false]
        refine ⟨?_, by simp [hh]⟩
        rintro d (rfl | rfl) <;> assumption
      · simp
      · cases neg <;> simp [Mag.limbs]
      · have : (val [m % B, m / B] : Int) = m := by simp only [val]; exact_mod_cast (by omega)
        cases neg <;> simp [toInt, Mag.limbs, this]

theorem wf_zero : Wf zero := by
  refine ⟨?_, ?_, ?_⟩ <;> simp [zero, Mag.limbs, norm_nil]

@[simp] theorem toInt_zero : toInt zero = 0 := rfl

theorem Wf.isZero {a : BigInt} (h : Wf a) : a.isZero = true ↔ a.toInt = 0 := by
  have hz := val_eq_zero h.norm.2
  simp only [BigInt.isZero, decide_eq_true_eq]
  have hs := h.sign
  unfold toInt
  cases hc : a.sign with
  | zero => simp
  | neg =>
    rw [hc] at hs
    have : val a.mag.limbs ≠ 0 := fun hv => by simpa using hs.2 (hz.1 hv)
    simp only [reduceCtorEq, false_iff]; omega
  | pos =>
    rw [hc] at hs
    have : val a.mag.limbs ≠ 0 := fun hv => by simpa using hs.2 (hz.1 hv)
    simp only [reduceCtorEq, false_iff]; omega

theorem Wf.sign_neg {a : BigInt} (h : Wf a) : a.sign = .neg ↔ a.toInt < 0 := by
  have hz := val_eq_zero h.norm.2
  have hs := h.sign
  unfold toInt
  cases hc : a.sign with
  | zero => simp
  | neg =>
    rw [hc] at hs
    have : val a.mag.limbs ≠ 0 := fun hv => by simpa using hs.2 (hz.1 hv)
    simp only [true_iff]; omega
  | pos => simp only [reduceCtorEq, false_iff]; omega

theorem Wf.sign_pos {a : BigInt} (h : Wf a) : a.sign = .pos ↔ 0 < a.toInt := by
  have hz := val_eq_zero h.norm.2
  have hs := h.sign
  unfold toInt
  cases hc : a.sign with
  | zero => simp
  | pos =>
    rw [hc] at hs
    have : val a.mag.limbs ≠ 0 := fun hv => by simpa using hs.2 (hz.1 hv)
    simp only [true_iff]; omega
  | neg => simp only [reduceCtorEq, false_iff]; omega

theorem Wf.natAbs {a : BigInt} (h : Wf a) : a.toInt.natAbs = val a.mag.limbs := by
  have hs := h.sign
  unfold toInt
  cases hc : a.sign with
  | zero => rw [hc] at hs; rw [hs.1 rfl]; rfl
  | pos => simp
  | neg => simp

theorem Wf.toInt_eq {a : BigInt} (h : Wf a) :
    a.toInt = if a.sign = .neg then -(val a.mag.limbs : Int) else val a.mag.limbs := by
  have hs := h.sign
  unfold toInt
  cases hc : a.sign with
  | zero => rw [hc] at hs; rw [hs.1 rfl]; rfl
  | pos => simp
  | neg => simp

theorem Wf.single {a : BigInt} (h : Wf a) {x : Nat} (hx : a.mag.asSingle = some x) :
    x < B ∧ val a.mag.limbs = x := by
  have hsh := h.shape
  cases hm : a.mag with
  | heap v => rw [hm] at hx; simp [Mag.asSingle] at hx
  | inline y =>
    rw [hm] at hx hsh
    simp only [Mag.asSingle, Option.some.injEq] at hx
    subst hx
    refine ⟨hsh, ?_⟩
    by_cases h0 : y = 0 <;> simp [Mag.limbs, h0, val]

theorem Wf.not_single {a : BigInt} (h : Wf a) (hx : a.mag.asSingle = none) : B ≤ val a.mag.limbs := by
  have hsh := h.shape
  have hn := h.norm
  cases hm : a.mag with
  | inline y => rw [hm] at hx; simp [Mag.asSingle] at hx
  | heap v =>
    rw [hm] at hsh hn
    simp only [Mag.limbs] at hn ⊢
    have := val_ge hn.2 (by rintro rfl; simp at hsh)
    simp only at hsh
    have h2 : B ^ 1 ≤ B ^ (v.length - 1) := Nat.pow_le_pow_right (by decide) (by omega)
    rw [pow_one] at h2
    omega

theorem eq_of_toInt {a b : BigInt} (ha : Wf a) (hb : Wf b) (h : a.toInt = b.toInt) : a = b := by
  have hs : a.sign = b.sign := by
    have a1 := ha.sign_neg; have a2 := ha.sign_pos; have b1 := hb.sign_neg; have b2 := hb.sign_pos
    rw [h] at a1 a2
    cases h1 : a.sign <;> cases h2 : b.sign <;> simp_all <;> omega
  have hl : a.mag.limbs = b.mag.limbs :=
    val_inj ha.norm hb.norm (by rw [← ha.natAbs, ← hb.natAbs, h])
  have hm : a.mag = b.mag := by
    have sa := ha.shape; have sb := hb.shape
    cases h1 : a.mag with
    | inline x =>
      cases h2 : b.mag with
      | inline y =>
        rw [h1, h2] at hl
        by_cases hx : x = 0 <;> by_cases hy : y = 0 <;> simp_all [Mag.limbs]
      | heap v =>
        rw [h1, h2] at hl; rw [h2] at sb
        by_cases hx : x = 0 <;> simp [Mag.limbs, hx] at hl <;> subst hl <;> simp at sb
    | heap v =>
      cases h2 : b.mag with
      | inline x =>
        rw [h1, h2] at hl; rw [h1] at sa
        by_cases hx : x = 0 <;> simp [Mag.limbs, hx] at hl <;> subst hl <;> simp at sa
      | heap w => rw [h1, h2] at hl; simp only [Mag.limbs] at hl; rw [hl]
  cases a; cases b; simp_all

theorem negated_spec {a : BigInt} (h : Wf a) : Wf a.negated ∧ a.negated.toInt = -a.toInt := by
  refine ⟨⟨h.norm, h.shape, ?_⟩, ?_⟩
  · have := h.sign; cases hc : a.sign <;> simp_all [negated]
  · cases hc : a.sign <;> simp [negated, toInt, hc]

theorem abs_spec {a : BigInt} (h : Wf a) : Wf a.abs ∧ a.abs.toInt = |a.toInt| := by
  refine ⟨⟨h.norm, h.shape, ?_⟩, ?_⟩
  · have := h.sign; cases hc : a.sign <;> simp_all [abs]
  · cases hc : a.sign <;> simp [abs, toInt, hc]

theorem addSlow_spec {a b : BigInt} (ha : Wf a) (hb : Wf b) :
    Wf (addSlow a b) ∧ (addSlow a b).toInt = a.toInt + b.toInt := by
  unfold addSlow
  by_cases h1 : a.sign = .zero
  · rw [if_pos h1]; exact ⟨hb, by simp [toInt, h1]⟩
  rw [if_neg h1]
  by_cases h2 : b.sign = .zero
  · rw [if_pos h2]; exact ⟨ha, by simp [toInt, h2]⟩
  rw [if_neg h2]
  have ea := ha.toInt_eq
  have eb := hb.toInt_eq
  by_cases h3 : a.sign = b.sign
  · rw [if_pos h3]
    have ⟨m1, m2⟩ := magAdd_spec ha.norm.1 hb.norm.1
    have ⟨s1, s2⟩ := fromSignMag_spec (decide (a.sign = .neg)) m2.1
    refine ⟨s1, ?_⟩
    rw [s2, m1, ea, eb, ← h3]
    by_cases hn : a.sign = .neg <;> simp [hn]; omega
  · rw [if_neg h3, magCmp_eq ha.norm hb.norm]
    have hopp : (a.sign = .neg ∧ b.sign = .pos) ∨ (a.sign = .pos ∧ b.sign = .neg) := by
      cases h4 : a.sign <;> cases h5 : b.sign <;> simp_all
    rcases Nat.lt_trichotomy (val a.mag.limbs) (val b.mag.limbs) with h | h | h
    · rw [Nat.compare_eq_lt.2 h]
      have ⟨m1, m2⟩ := magSub_spec hb.norm.1 ha.norm.1 h.le
      have ⟨s1, s2⟩ := fromSignMag_spec (decide (b.sign = .neg)) m2.1
      refine ⟨s1, ?_⟩
      simp only
      rw [s2, m1, ea, eb]
      rcases hopp with ⟨x, y⟩ | ⟨x, y⟩ <;> simp [x, y] <;> omega
    · rw [Nat.compare_eq_eq.2 h]
      refine ⟨wf_zero, ?_⟩
      simp only
      rw [ea, eb, toInt_zero]
      rcases hopp with ⟨x, y⟩ | ⟨x, y⟩ <;> simp [x, y] <;> omega
    · rw [Nat.compare_eq_gt.2 h]
      have ⟨m1, m2⟩ := magSub_spec ha.norm.1 hb.norm.1 h.le
      have ⟨s1, s2⟩ := fromSignMag_spec (decide (a.sign = .neg)) m2.1
      refine ⟨s1, ?_⟩
      simp only
      rw [s2, m1, ea, eb]
      rcases hopp with ⟨x, y⟩ | ⟨x, y⟩ <;> simp [x, y] <;> omega

theorem add_spec {a b : BigInt} (ha : Wf a) (hb : Wf b) :
    Wf (add a b) ∧ (add a b).toInt = a.toInt + b.toInt := by
  unfold add
  split
  · rename_i x y hx hy
    have ⟨x1, x2⟩ := ha.single hx
    have ⟨y1, y2⟩ := hb.single hy
    have ea := ha.toInt_eq; have eb := hb.toInt_eq
    rw [x2] at ea; rw [y2] at eb
    simp only
    rw [← ea, ← eb]
    have hlt : (a.toInt + b.toInt).natAbs < B * B := by
      have h1 := ha.natAbs; have h2 := hb.natAbs
      rw [x2] at h1; rw [y2] at h2
      have : (a.toInt + b.toInt).natAbs ≤ a.toInt.natAbs + b.toInt.natAbs := Int.natAbs_add_le _ _
      have h3 : B + B < B * B := by decide
      omega
    have ⟨s1, s2⟩ := fromSignMagU128_spec (decide (a.toInt + b.toInt < 0)) hlt
    refine ⟨s1, ?_⟩
    rw [s2]
    by_cases hn : a.toInt + b.toInt < 0 <;> simp only [hn, decide_true, decide_false, if_true, Bool.false_eq_true, if_false] <;> omega
  · exact addSlow_spec ha hb

theorem sub_spec {a b : BigInt} (ha : Wf a) (hb : Wf b) :
    Wf (sub a b) ∧ (sub a b).toInt = a.toInt - b.toInt := by
  have ⟨n1, n2⟩ := negated_spec hb
  have ⟨s1, s2⟩ := add_spec ha n1
  exact ⟨s1, by unfold sub; rw [s2, n2]; rfl⟩

theorem signed_mul {a b : BigInt} (ha : Wf a) (hb : Wf b) :
    (if xor (decide (a.sign = .neg)) (decide (b.sign = .neg)) then
      -((val a.mag.limbs * val b.mag.limbs : Nat) : Int) else (val a.mag.limbs * val b.mag.limbs : Nat)) =
      a.toInt * b.toInt := by
  rw [ha.toInt_eq, hb.toInt_eq]
  by_cases h1 : a.sign = .neg <;> by_cases h2 : b.sign = .neg <;> simp [h1, h2]

theorem mul_spec {a b : BigInt} (ha : Wf a) (hb : Wf b) :
    Wf (mul a b) ∧ (mul a b).toInt = a.toInt * b.toInt := by
  unfold mul
  rw [← signed_mul ha hb]
  simp only
  split
  · rename_i x y hx hy
    have ⟨x1, x2⟩ := ha.single hx
    have ⟨y1, y2⟩ := hb.single hy
    have hlt : x * y < B * B := Nat.mul_lt_mul'' x1 y1
    rw [x2, y2]
    exact fromSignMagU128_spec _ hlt
  · by_cases hz : (a.isZero || b.isZero) = true
    · rw [if_pos hz]
      refine ⟨wf_zero, ?_⟩
      rw [signed_mul ha hb]
      rw [Bool.or_eq_true, ha.isZero, hb.isZero] at hz
      rcases hz with h | h <;> simp [h]
    · rw [if_neg hz]
      have ⟨m1, m2⟩ := magMul_spec ha.norm.1 hb.norm.1
      have ⟨s1, s2⟩ := fromSignMag_spec (xor (decide (a.sign = .neg)) (decide (b.sign = .neg))) m2.1
      exact ⟨s1, by rw [s2, m1]⟩

theorem signed_tdiv {a b : BigInt} (ha : Wf a) (hb : Wf b) :
    (if xor (decide (a.sign = .neg)) (decide (b.sign = .neg)) then
      -((val a.mag.limbs / val b.mag.limbs : Nat) : Int) else (val a.mag.limbs / val b.mag.limbs : Nat)) =
      a.toInt.tdiv b.toInt := by
  rw [ha.toInt_eq, hb.toInt_eq]
  by_cases h1 : a.sign = .neg <;> by_cases h2 : b.sign = .neg <;>
    simp [h1, h2, Int.neg_tdiv, Int.tdiv_neg, Int.ofNat_tdiv]

theorem signed_tmod {a b : BigInt} (ha : Wf a) (hb : Wf b) :
    (if decide (a.sign = .neg) then
      -((val a.mag.limbs % val b.mag.limbs : Nat) : Int) else (val a.mag.limbs % val b.mag.limbs : Nat)) =
      a.toInt.tmod b.toInt := by
  rw [ha.toInt_eq, hb.toInt_eq]
  by_cases h1 : a.sign = .neg <;> by_cases h2 : b.sign = .neg <;>
    simp [h1, h2, Int.neg_tmod, Int.tmod_neg, ← Int.ofNat_tmod]

theorem divRem_spec {a b : BigInt} (ha : Wf a) (hb : Wf b) :
    (b.toInt = 0 → divRem a b = none) ∧
    (b.toInt ≠ 0 → ∃ q r, divRem a b = some (q, r) ∧ Wf q ∧ Wf r ∧
      q.toInt = a.toInt.tdiv b.toInt ∧ r.toInt = a.toInt.tmod b.toInt) := by
  constructor
  · intro h; unfold divRem; rw [if_pos (hb.isZero.2 h)]
  · intro h
    have hz : ¬ b.isZero = true := fun hc => h (hb.isZero.1 hc)
    have hbpos : 0 < val b.mag.limbs := by rw [← hb.natAbs]; omega
    unfold divRem
    rw [if_neg hz, ← signed_tdiv ha hb, ← signed_tmod ha hb]
    simp only
    split
    · rename_i x y hx hy
      have ⟨x1, x2⟩ := ha.single hx
      have ⟨y1, y2⟩ := hb.single hy
      rw [x2, y2]
      rw [y2] at hbpos
      have l1 : x / y < B * B := by
        have := Nat.div_le_self x y
        have h3 : B < B * B := by decide
        omega
      have l2 : x % y < B * B := by
        have := Nat.mod_lt x hbpos
        have h3 : B < B * B := by decide
        omega
      have ⟨s1, s2⟩ := fromSignMagU128_spec (xor (decide (a.sign = .neg)) (decide (b.sign = .neg))) l1
      have ⟨t1, t2⟩ := fromSignMagU128_spec (decide (a.sign = .neg)) l2
      exact ⟨_, _, rfl, s1, t1, s2, t2⟩
    · by_cases haz : a.isZero = true
      · rw [if_pos haz]
        refine ⟨_, _, rfl, wf_zero, wf_zero, ?_, ?_⟩
        · rw [signed_tdiv ha hb, ha.isZero.1 haz]; simp
        · rw [signed_tmod ha hb, ha.isZero.1 haz]; simp
      · rw [if_neg haz]
        have hne : b.mag.limbs ≠ [] := by intro h0; rw [h0] at hbpos; simp [val] at hbpos
        have ⟨d1, d2, d3, d4⟩ := magDivrem_spec ha.norm hb.norm hne
        have ⟨s1, s2⟩ := fromSignMag_spec (xor (decide (a.sign = .neg)) (decide (b.sign = .neg))) d3.1
        have ⟨t1, t2⟩ := fromSignMag_spec (decide (a.sign = .neg)) d4.1
        exact ⟨_, _, rfl, s1, t1, by rw [s2, d1], by rw [t2, d2]⟩

theorem fromU64_spec {x : Nat} (h : x < B) : Wf (fromU64 x) ∧ (fromU64 x).toInt = x := by
  have ⟨h1, h2⟩ := fromSignMagU128_spec false (m := x) (by have h3 : B < B * B := by decide
                                                           omega)
  exact ⟨h1, h2⟩

theorem fromI64_spec {x : Int} (h : x.natAbs < B) : Wf (fromI64 x) ∧ (fromI64 x).toInt = x := by
  have ⟨h1, h2⟩ := fromSignMagU128_spec (decide (x < 0)) (m := x.natAbs) (by
    have h3 : B < B * B := by decide
    omega)
  refine ⟨h1, ?_⟩
  unfold fromI64
  rw [h2]
  by_cases hx : x < 0 <;> simp only [hx, decide_true, decide_false, if_true, Bool.false_eq_true, if_false] <;> omega

theorem toI64_spec {a : BigInt} (h : Wf a) :
    a.toI64 = if -9223372036854775808 ≤ a.toInt ∧ a.toInt ≤ 9223372036854775807 then some a.toInt else none := by
  unfold toI64
  cases hx : a.mag.asSingle with
  | none =>
    have h1 := h.not_single hx
    have h2 := h.natAbs
    rw [if_neg]
    rw [B] at h1
    omega
  | some x =>
    have ⟨x1, x2⟩ := h.single hx
    have ea := h.toInt_eq
    rw [x2] at ea
    simp only
    rw [← ea]

theorem powLoop_spec {fuel : Nat} {r b : BigInt} {e : Nat} (hr : Wf r) (hb : Wf b) (he : e < 2 ^ fuel) :
    Wf (powLoop (fuel + 1) r b e) ∧ (powLoop (fuel + 1) r b e).toInt = r.toInt * b.toInt ^ e := by
  induction fuel generalizing r b e with
  | zero =>
    have : e = 0 := by simpa using he
    subst this
    rw [powLoop]; simp [hr]
  | succ fuel ih =>
    rw [powLoop]
    by_cases h0 : e > 0
    · rw [if_pos h0]
      have hr' : Wf (if e % 2 = 1 then r.mul b else r) := by split; exacts [(mul_spec hr hb).1, hr]
      have hb' : Wf (if e / 2 > 0 then b.mul b else b) := by split; exacts [(mul_spec hb hb).1, hb]
      have ⟨i1, i2⟩ := ih hr' hb' (e := e / 2) (by rw [pow_succ] at he; omega)
      refine ⟨i1, ?_⟩
      simp only
      rw [i2]
      have e1 : (if e / 2 > 0 then b.mul b else b).toInt ^ (e / 2) = (b.toInt * b.toInt) ^ (e / 2) := by
        by_cases h2 : e / 2 > 0
        · rw [if_pos h2, (mul_spec hb hb).2]
        · have : e / 2 = 0 := by omega
          rw [this, pow_zero, pow_zero]
      rw [e1, ← pow_two, ← pow_mul]
      have hd := Nat.div_add_mod e 2
      by_cases h2 : e % 2 = 1
      · rw [if_pos h2, (mul_spec hr hb).2, Int.mul_assoc, ← pow_succ']
        congr 2; omega
      · rw [if_neg h2]; congr 2; omega
    · rw [if_neg h0]
      have : e = 0 := by omega
      subst this; simp [hr]

theorem pow_spec {a : BigInt} (h : Wf a) {e : Nat} (he : e < 2 ^ 32) :
    Wf (pow a e) ∧ (pow a e).toInt = a.toInt ^ e := by
  have ⟨o1, o2⟩ := fromU64_spec (x := 1) (by decide)
  have ⟨h1, h2⟩ := powLoop_spec o1 h he
  refine ⟨h1, ?_⟩
  unfold pow
  rw [h2, o2]; simp

theorem compare_neg_int (a b : Int) : compare (-a) (-b) = compare b a := by
  rcases lt_trichotomy a b with h | h | h
  · rw [compare_gt_iff_gt.2 (by omega : -a > -b), compare_gt_iff_gt.2 h]
  · subst h; rw [compare_eq_iff_eq.2 rfl]; exact (compare_eq_iff_eq.2 rfl).symm
  · rw [compare_lt_iff_lt.2 (by omega : -a < -b), compare_lt_iff_lt.2 h]

theorem compare_cast (a b : Nat) : compare (a : Int) (b : Int) = compare a b := by
  rcases lt_trichotomy a b with h | h | h
  · rw [compare_lt_iff_lt.2 h, compare_lt_iff_lt]; exact_mod_cast h
  · subst h; rw [compare_eq_iff_eq.2 rfl]; exact (compare_eq_iff_eq.2 rfl).symm
  · rw [compare_gt_iff_gt.2 h, compare_gt_iff_gt]; exact_mod_cast h

theorem cmp_spec {a b : BigInt} (ha : Wf a) (hb : Wf b) : cmp a b = compare a.toInt b.toInt := by
  have a1 := ha.sign_neg; have a2 := ha.sign_pos; have b1 := hb.sign_neg; have b2 := hb.sign_pos
  unfold cmp
  cases h1 : a.sign <;> cases h2 : b.sign <;> simp only [rank]
  all_goals first
    | (have hl : a.toInt < b.toInt := by simp [h1, h2] at a1 a2 b1 b2; omega
       rw [compare_lt_iff_lt.2 hl]; rfl)
    | (have hl : a.toInt > b.toInt := by simp [h1, h2] at a1 a2 b1 b2; omega
       rw [compare_gt_iff_gt.2 hl]; rfl)
    | (have hl : a.toInt = b.toInt := by simp [h1, h2] at a1 a2 b1 b2; omega
       rw [compare_eq_iff_eq.2 hl]; rfl)
    | skip
  · show magCmp b.mag.limbs a.mag.limbs = _
    rw [magCmp_eq hb.norm ha.norm, ha.toInt_eq, hb.toInt_eq, h1, h2]
    simp only [if_true]
    rw [compare_neg_int, compare_cast]
  · show magCmp a.mag.limbs b.mag.limbs = _
    rw [magCmp_eq ha.norm hb.norm, ha.toInt_eq, hb.toInt_eq, h1, h2]
    simp only [reduceCtorEq, if_false]
    rw [compare_cast]

theorem isOdd_spec {a : BigInt} (h : Wf a) : a.isOdd = true ↔ a.toInt % 2 = 1 := by
  have hn := h.natAbs
  have key : a.isOdd = true ↔ val a.mag.limbs % 2 = 1 := by
    unfold isOdd
    cases hl : a.mag.limbs with
    | nil => simp [val]
    | cons d t =>
      simp only [decide_eq_true_eq, val, Nat.and_one_is_mod, B]
      omega
  rw [key]; omega

/-! Bytes -/

theorem ofLeBytes_leBytes (n x : Nat) (h : x < 256 ^ n) : ofLeBytes (leBytes n x) = x := by
  induction n generalizing x with
  | zero => simp at h; subst h; rfl
  | succ n ih =>
    rw [leBytes, ofLeBytes, ih _ (by rw [pow_succ] at h; omega)]
    omega

theorem leBytes_length (n x : Nat) : (leBytes n x).length = n := by
  induction n generalizing x with
  | zero => rfl
  | succ n ih => simp [leBytes, ih]

theorem chunkLimbs_flatMap {l : List Nat} (h : Limbs l) (fuel : Nat) (hf : l.length ≤ fuel) :
    chunkLimbs fuel (l.flatMap (leBytes 8)) = l := by
  induction l generalizing fuel with
  | nil => cases fuel <;> simp [chunkLimbs]
  | cons d t ih =>
    have ⟨hd, ht⟩ := Limbs.cons.1 h
    cases fuel with
    | zero => simp at hf
    | succ fuel =>
      have hlen := leBytes_length 8 d
      have e : (d :: t).flatMap (leBytes 8) = leBytes 8 d ++ t.flatMap (leBytes 8) := rfl
      rw [e]
      have t1 : (leBytes 8 d ++ t.flatMap (leBytes 8)).take 8 = leBytes 8 d := List.take_left' hlen
      have t2 : (leBytes 8 d ++ t.flatMap (leBytes 8)).drop 8 = t.flatMap (leBytes 8) := List.drop_left' hlen
      cases hc : leBytes 8 d ++ t.flatMap (leBytes 8) with
      | nil =>
        have := congrArg List.length hc
        simp [hlen] at this
      | cons x xs =>
        rw [chunkLimbs, ← hc, t1, t2, ih ht fuel (by simpa using hf), ofLeBytes_leBytes]
        simpa [B] using hd

theorem ofLeBytes_lt {l : List Nat} (h : ∀ b ∈ l, b < 256) : ofLeBytes l < 256 ^ l.length := by
  induction l with
  | nil => simp [ofLeBytes]
  | cons b t ih =>
    have := ih (fun x hx => h x (List.mem_cons_of_mem _ hx))
    have hb := h b List.mem_cons_self
    rw [ofLeBytes, List.length_cons, pow_succ]; omega

theorem ofLeBytes_append (a b : List Nat) : ofLeBytes (a ++ b) = ofLeBytes a + 256 ^ a.length * ofLeBytes b := by
  induction a with
  | nil => simp [ofLeBytes]
  | cons d t ih => simp only [List.cons_append, ofLeBytes, ih, List.length_cons, pow_succ]; ring

theorem chunkLimbs_spec {l : List Nat} (h : ∀ b ∈ l, b < 256) (fuel : Nat) (hf : l.length ≤ fuel) :
    Limbs (chunkLimbs fuel l) ∧ val (chunkLimbs fuel l) = ofLeBytes l := by
  induction fuel generalizing l with
  | zero =>
    have : l = [] := List.eq_nil_of_length_eq_zero (by omega)
    subst this; simp [chunkLimbs, Limbs, val, ofLeBytes]
  | succ fuel ih =>
    cases l with
    | nil => simp [chunkLimbs, Limbs, val, ofLeBytes]
    | cons b t =>
      rw [chunkLimbs]
      have ⟨h1, h2⟩ := ih (l := (b :: t).drop 8) (fun x hx => h x (List.mem_of_mem_drop hx)) (by
        simp only [List.length_drop]; simp only [List.length_cons] at hf ⊢; omega)
      have hlt : ofLeBytes ((b :: t).take 8) < B := by
        have := ofLeBytes_lt (l := (b :: t).take 8) (fun x hx => h x (List.mem_of_mem_take hx))
        have h3 : 256 ^ ((b :: t).take 8).length ≤ 256 ^ 8 :=
          Nat.pow_le_pow_right (by decide) (by rw [List.length_take]; omega)
        have h4 : (256:Nat) ^ 8 = B := by decide
        omega
      refine ⟨Limbs.cons.2 ⟨hlt, h1⟩, ?_⟩
      rw [val, h2]
      have e := ofLeBytes_append ((b :: t).take 8) ((b :: t).drop 8)
      rw [List.take_append_drop] at e
      rw [e]
      by_cases hl : 8 ≤ (b :: t).length
      · have : ((b :: t).take 8).length = 8 := by rw [List.length_take]; omega
        rw [this]; rfl
      · have : (b :: t).drop 8 = [] := List.drop_eq_nil_of_le (by omega)
        rw [this]; simp [ofLeBytes]

end BigInt
end Verif.Num
