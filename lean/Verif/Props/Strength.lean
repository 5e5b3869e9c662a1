import Verif.Lang.StrengthSound

/-!
# C120: cheaper divisions and the JIT's integer operations compute what the interpreter does
-/
namespace Verif.Props

open Verif.Lang Verif.Lang.Strength

/-- What the analysis says of the dividend is true. -/
def strFacts (isInt nonneg : Bool) (v : Value) : Prop :=
  (isInt = true → ∃ n, v = .int n) ∧ (nonneg = true → ∀ n, v = .int n → 0 ≤ n)

/-- Division and remainder by a 64-bit literal, whatever replaced them, give what the interpreter
gives, when an integer dividend has 64 bits.  Partial: the replacements of longer dividends raise an
error (`C120_wide_fails`). -/
theorem C120_division_partial (P : Prims) (en i nn : Bool) (d : Int) (v : Value)
    (hd : d < 2 ^ 63) (hf : strFacts i nn v)
    (hv : ∀ n, v = .int n → -(2 ^ 63) ≤ n ∧ n < 2 ^ 63) :
    vmOp P (lowerDiv en i nn d) v = applyOp P .div v (.int d) ∧
      vmOp P (lowerMod en i nn d) v = applyOp P .mod v (.int d) := by
  constructor
  · unfold lowerDiv
    split
    · next k hk =>
      obtain ⟨_, e, _⟩ := divpow2_of hd hk
      rw [e]; rfl
    · split
      · next m o hm =>
        obtain ⟨h1, h2, h3, h4⟩ := magic_of hd hm
        obtain ⟨n, rfl⟩ := hf.1 h1
        have hn := hv n rfl
        have h0 := hf.2 h2 n rfl
        simp only [vmOp, applyOp, divVals]
        rw [if_pos (by simp only [narrow]; simpa using hn), if_neg (by omega),
          (magicEval_eq h4 h3 h0 hn.2).1]
      · rfl
  · unfold lowerMod
    split
    · next m hm =>
      obtain ⟨h1, h2, rfl, k, e, hk⟩ := modpow2_of hd hm
      obtain ⟨n, rfl⟩ := hf.1 h1
      have hn := hv n rfl
      have h0 := hf.2 h2 n rfl
      have hp : (0 : Int) < 2 ^ k := Int.pow_pos (by omega)
      simp only [vmOp, applyOp, modVals, bitVals]
      rw [if_pos (by simp only [narrow]; simp; omega), if_neg (by omega), e,
        band_mask h0 hn.2 hk.2]
    · split
      · next m o hm =>
        obtain ⟨h1, h2, h3, h4⟩ := magic_of hd hm
        obtain ⟨n, rfl⟩ := hf.1 h1
        have hn := hv n rfl
        have h0 := hf.2 h2 n rfl
        simp only [vmOp, applyOp, modVals]
        rw [if_pos (by simp only [narrow]; simpa using hn), if_neg (by omega),
          (magicEval_eq h4 h3 h0 hn.2).2]
      · rfl

/-- Dividends of any length: never a wrong value; an error at worst. -/
theorem C120_never_wrong (P : Prims) (en i nn : Bool) (d : Int) (v : Value)
    (hd : d < 2 ^ 63) (hf : strFacts i nn v) :
    (∀ r, vmOp P (lowerDiv en i nn d) v = .ok r → applyOp P .div v (.int d) = .ok r) ∧
      (∀ r, vmOp P (lowerMod en i nn d) v = .ok r → applyOp P .mod v (.int d) = .ok r) := by
  by_cases hv : ∀ n, v = .int n → -(2 ^ 63) ≤ n ∧ n < 2 ^ 63
  · obtain ⟨h1, h2⟩ := C120_division_partial P en i nn d v hd hf hv
    exact ⟨fun r h => h1 ▸ h, fun r h => h2 ▸ h⟩
  · have : ∃ n, v = .int n ∧ ¬(-(2 ^ 63) ≤ n ∧ n < 2 ^ 63) := by
      by_contra hc
      exact hv fun n e => by_contra fun hn => hc ⟨n, e, hn⟩
    obtain ⟨n, rfl, hn⟩ := this
    have hnar : narrow n = false := by
      rw [Bool.eq_false_iff]; intro h; apply hn; simpa [narrow] using h
    constructor
    · intro r
      unfold lowerDiv
      split
      · next k hk =>
        obtain ⟨_, e, _⟩ := divpow2_of hd hk
        rw [e]; exact id
      · split
        · simp [vmOp, hnar]
        · exact id
    · intro r
      unfold lowerMod
      split
      · simp [vmOp, bitVals, hnar]
      · split
        · simp [vmOp, hnar]
        · exact id

/-- The shift is used for every integer, the mask and the multiplication for non-negative ones. -/
example : lowerDiv true true false 8 = .divPow2 3 ∧ lowerMod true true true 8 = .mask 7 ∧
    lowerMod true true false 8 = .mod 8 ∧ (∃ m o, lowerDiv true true true 7 = .magic m o 0) ∧
    (∃ m o, lowerMod true true true 7 = .magic m o 7) ∧ lowerDiv true false true 7 = .div 7 := by
  refine ⟨by decide +kernel, by decide +kernel, by decide +kernel, ?_, ?_, by decide +kernel⟩
  · exact ⟨_, _, rfl⟩
  · exact ⟨_, _, rfl⟩

/-- The hypotheses hold of 100, and of -100 without the sign. -/
example : strFacts true true (.int 100) ∧ strFacts true false (.int (-100)) := by
  refine ⟨⟨fun _ => ⟨_, rfl⟩, fun _ n h => ?_⟩, ⟨fun _ => ⟨_, rfl⟩, fun h => by simp at h⟩⟩
  injection h with h; omega

/-- A sum past 64 bits is a non-negative integer, but its remainder by 8 or 7 and its quotient by 7
are errors in the virtual machine and values in the interpreter. -/
theorem C120_wide_fails (P : Prims) :
    strFacts true true (.int (2 ^ 63)) ∧
    (vmOp P (lowerMod true true true 8) (.int (2 ^ 63)) = .error .type ∧
      applyOp P .mod (.int (2 ^ 63)) (.int 8) = .ok (.int 0)) ∧
    (vmOp P (lowerMod true true true 7) (.int (2 ^ 63)) = .error .type ∧
      applyOp P .mod (.int (2 ^ 63)) (.int 7) = .ok (.int 1)) ∧
    (vmOp P (lowerDiv true true true 7) (.int (2 ^ 63)) = .error .type ∧
      applyOp P .div (.int (2 ^ 63)) (.int 7) = .ok (.int 1317624576693539401)) := by
  refine ⟨⟨fun _ => ⟨_, rfl⟩, fun _ n h => ?_⟩, ⟨rfl, rfl⟩, ⟨rfl, rfl⟩, ⟨rfl, rfl⟩⟩
  injection h with h; omega

/-- The JIT's shift divides by a power of two, rounding towards zero. -/
theorem C120_shift (x : BitVec 64) (k : Nat) (hk : k ≤ 62) :
    (refShift x k).toInt = x.toInt.tdiv (2 ^ k) := refShift_eq x hk

example : (refShift (BitVec.ofInt 64 (-7)) 1).toInt = -3 := by decide +kernel

/-- The shift is chosen only for a dividend known to be an integer, and then the JIT's shift is the
quotient by the literal, for every word. -/
theorem C120_shift_chosen (en i nn : Bool) (d : Int) (k : Nat) (hd : d < 2 ^ 63)
    (h : lowerDiv en i nn d = .divPow2 k) :
    i = true ∧ k ≤ 62 ∧ ∀ x : BitVec 64, (refShift x k).toInt = x.toInt.tdiv d := by
  unfold lowerDiv at h
  split at h
  · next k' hk =>
    obtain ⟨h1, h2, _, h4⟩ := divpow2_of hd hk
    injection h with h
    subst h
    exact ⟨h1, h4, fun x => by rw [h2]; exact refShift_eq x h4⟩
  · split at h <;> simp at h

example : lowerDiv true true false 1024 = .divPow2 10 := by decide +kernel

/-- The constants the compiler passes to the JIT give the quotient and the remainder there too. -/
theorem C120_magic (en i nn : Bool) (d x : Int) (m o : Nat) (hd : d < 2 ^ 63)
    (h : magicDivConst en i nn d = some (m, o)) (h0 : 0 ≤ x) (h1 : x < 2 ^ 63) :
    magicEval x m o 0 = x.tdiv d ∧ magicEval x m o d = x.tmod d :=
  have hm := magic_of hd h
  magicEval_eq hm.2.2.2 hm.2.2.1 h0 h1

example : ∃ m o, magicDivConst true true true 1000000007 = some (m, o) := ⟨_, _, rfl⟩

/-- A 64-bit word as the interpreter's integer. -/
def strWord (a : BitVec 64) : Value := .int a.toInt

/-- The interpreter's operation of the same name. -/
def strOp : MOp → BinOp
  | .add => .add | .sub => .sub | .mul => .mul | .div => .div | .mod => .mod
  | .lt => .lt | .gt => .gt | .le => .le | .ge => .ge | .eq => .eq | .ne => .ne
  | .band => .bitAnd | .bor => .bitOr | .bxor => .bitXor | .shl => .shl | .shr => .shr

/-- How the JIT's word stands for the interpreter's value. -/
def strStands (r : BitVec 64) : Value → Prop
  | .int n => n = r.toInt
  | .bool b => r = if b then 1 else 0
  | _ => False

/-- Where the JIT does not leave, its result is the interpreter's. -/
theorem C120_jit (P : Prims) (op : MOp) (a b r : BitVec 64) (h : refOp op a b = some r) :
    ∃ v, applyOp P (strOp op) (strWord a) (strWord b) = .ok v ∧ strStands r v := by
  have hlt : ∀ x y : BitVec 64, x.slt y = decide (x.toInt < y.toInt) := fun _ _ => rfl
  have hle : ∀ x y : BitVec 64, x.sle y = decide (x.toInt ≤ y.toInt) := fun _ _ => rfl
  have hb : ∀ {c c' : Bool}, some (bit c) = some r → c = c' → strStands r (.bool c') := by
    intro c c' h e
    injection h with h
    rw [← h, e]; rfl
  cases op with
  | add => exact ⟨_, rfl, checked_some.1 h⟩
  | sub => exact ⟨_, rfl, checked_some.1 h⟩
  | mul => exact ⟨_, rfl, checked_some.1 h⟩
  | div =>
    simp only [refOp] at h
    split_ifs at h with hc
    injection h with h
    have hz : b.toInt ≠ 0 := fun e => hc (.inl (BitVec.eq_of_toInt_eq (by simpa using e)))
    refine ⟨.int (a.toInt.tdiv b.toInt), by simp [applyOp, strOp, strWord, divVals, hz], ?_⟩
    rw [← h]
    show _ = (a.sdiv b).toInt
    rw [BitVec.toInt_sdiv_of_ne_or_ne]
    by_cases e : a = BitVec.intMin 64
    · exact .inr fun e' => hc (.inr ⟨e', e⟩)
    · exact .inl e
  | mod =>
    simp only [refOp] at h
    split_ifs at h with hc
    injection h with h
    have hz : b.toInt ≠ 0 := fun e => hc (BitVec.eq_of_toInt_eq (by simpa using e))
    refine ⟨.int (a.toInt.tmod b.toInt), by simp [applyOp, strOp, strWord, modVals, hz], ?_⟩
    rw [← h]
    show _ = (a.srem b).toInt
    rw [BitVec.toInt_srem]
  | lt =>
    refine ⟨_, rfl, hb h ?_⟩
    rw [hlt, Bool.eq_iff_iff]; simp [relOf, strOp, Int.compare_eq_lt]
  | gt =>
    refine ⟨_, rfl, hb h ?_⟩
    rw [hlt, Bool.eq_iff_iff]; simp [relOf, strOp, Int.compare_eq_gt]
  | le =>
    refine ⟨_, rfl, hb h ?_⟩
    rw [hle, Bool.eq_iff_iff]; simp [relOf, strOp, Int.compare_eq_gt]
  | ge =>
    refine ⟨_, rfl, hb h ?_⟩
    rw [hle, Bool.eq_iff_iff]; simp [relOf, strOp, Int.compare_eq_lt]
  | eq =>
    refine ⟨_, rfl, hb h ?_⟩
    rw [Bool.eq_iff_iff]; simp [strWord, valEq, BitVec.toInt_inj]
  | ne =>
    refine ⟨_, rfl, hb h ?_⟩
    rw [Bool.eq_iff_iff]; simp [strWord, valEq, BitVec.toInt_inj]
  | band =>
    injection h with h
    exact ⟨.int (band a.toInt b.toInt), by simp [applyOp, strOp, strWord, bitVals, narrow_word], by
      rw [← h]; simp [strStands, band, BitVec.ofInt_toInt]⟩
  | bor =>
    injection h with h
    exact ⟨.int (bor a.toInt b.toInt), by simp [applyOp, strOp, strWord, bitVals, narrow_word], by
      rw [← h]; simp [strStands, bor, BitVec.ofInt_toInt]⟩
  | bxor =>
    injection h with h
    exact ⟨.int (bxor a.toInt b.toInt), by simp [applyOp, strOp, strWord, bitVals, narrow_word], by
      rw [← h]; simp [strStands, bxor, BitVec.ofInt_toInt]⟩
  | shl =>
    injection h with h
    exact ⟨.int (bshl a.toInt b.toInt), by simp [applyOp, strOp, strWord, shiftVals, narrow_word], by
      rw [← h, shift_count]; simp only [strStands, bshl, BitVec.ofInt_toInt]⟩
  | shr =>
    injection h with h
    exact ⟨.int (bshr a.toInt b.toInt), by simp [applyOp, strOp, strWord, shiftVals, narrow_word], by
      rw [← h, shift_count]; simp only [strStands, bshr, BitVec.ofInt_toInt]⟩

/-- The JIT leaves only where the interpreter raises an error or its result is not a 64-bit
integer. -/
theorem C120_jit_exit (P : Prims) (op : MOp) (a b : BitVec 64) (h : refOp op a b = none) :
    (∃ e, applyOp P (strOp op) (strWord a) (strWord b) = .error e) ∨
      ∃ n, applyOp P (strOp op) (strWord a) (strWord b) = .ok (.int n) ∧ ¬(-(2 ^ 63) ≤ n ∧ n < 2 ^ 63) := by
  have hc : ∀ {z : Int}, checked z = none → ¬(-(2 ^ 63) ≤ z ∧ z < 2 ^ 63) := by
    intro z h hf
    unfold checked at h
    rw [if_pos hf] at h
    simp at h
  cases op with
  | add => exact .inr ⟨_, rfl, hc h⟩
  | sub => exact .inr ⟨_, rfl, hc h⟩
  | mul => exact .inr ⟨_, rfl, hc h⟩
  | div =>
    simp only [refOp] at h
    split_ifs at h with hd
    rcases hd with rfl | ⟨rfl, rfl⟩
    · exact .inl ⟨.divZero, rfl⟩
    · exact .inr ⟨2 ^ 63, rfl, by omega⟩
  | mod =>
    simp only [refOp] at h
    split_ifs at h with hd
    subst hd
    exact .inl ⟨.divZero, rfl⟩
  | _ => simp [refOp] at h

/-- The solver's specifications say what the JIT's operations do. -/
theorem C120_spec (op : MOp) (a b w : BitVec 64) (h : specResult op a b = some w) :
    refOp op a b = if specPre op a b = true then some w else none := by
  have hs : ∀ x : BitVec 64, (x.signExtend 128).toInt = x.toInt :=
    fun x => BitVec.toInt_signExtend_of_le (by omega)
  have hr : ∀ x : BitVec 64, -(2 ^ 63) ≤ x.toInt ∧ x.toInt < 2 ^ 63 := fun x => by
    simpa [narrow] using narrow_word x
  have ha := hr a
  have hb := hr b
  have key : ∀ {e : BitVec 128} {u : BitVec 64} {z : Int}, e.toInt = z → u.toInt = z.bmod (2 ^ 64) →
      checked z = if noOverflow e u = true then some u else none := by
    intro e u z h1 h2
    by_cases hz : -(2 ^ 63) ≤ z ∧ z < 2 ^ 63
    · rw [if_pos ((exact128 h1 h2).2 hz), checked_some, h2, Tv.fit_bmod hz]
    · rw [if_neg (fun hn => hz ((exact128 h1 h2).1 hn))]
      unfold checked
      rw [if_neg hz]
  have h63 : ∀ x : BitVec 64, (x &&& 63).toNat = x.toNat % 2 ^ 32 % 64 := by
    intro x
    rw [BitVec.toNat_and]
    show x.toNat &&& 63 = _
    rw [show (63 : Nat) = 2 ^ 6 - 1 from rfl, Nat.and_two_pow_sub_one_eq_mod]
    omega
  cases op <;> simp only [specResult, Option.some.injEq, reduceCtorEq] at h <;> subst h
  case add =>
    apply key
    · rw [BitVec.toInt_add, hs, hs]; exact Int.bmod_eq_of_le (by omega) (by omega)
    · rw [BitVec.toInt_add]
  case sub =>
    apply key
    · rw [BitVec.toInt_sub, hs, hs]; exact Int.bmod_eq_of_le (by omega) (by omega)
    · rw [BitVec.toInt_sub]
  case mul =>
    apply key
    · rw [BitVec.toInt_mul, hs, hs]
      have h1 : (a.toInt * b.toInt).natAbs ≤ 2 ^ 63 * 2 ^ 63 := by
        rw [Int.natAbs_mul]; exact Nat.mul_le_mul (by omega) (by omega)
      exact Int.bmod_eq_of_le (by omega) (by omega)
    · rw [BitVec.toInt_mul]
  case div =>
    have hp : specPre .div a b = true ↔ ¬(b = 0 ∨ (b = -1 ∧ a = BitVec.intMin 64)) := by
      unfold specPre
      by_cases h0 : b = 0
      · subst h0; simp
      · by_cases h1 : a = BitVec.intMin 64 <;> by_cases h2 : b = -1 <;> simp_all
    unfold refOp
    dsimp only
    by_cases hc : b = 0 ∨ (b = -1 ∧ a = BitVec.intMin 64)
    · rw [if_pos hc, if_neg (fun h => hp.1 h hc)]
    · rw [if_neg hc, if_pos (hp.2 hc), Tv.smtSDiv_eq_sdiv a b (fun h => hc (.inl h))]
  case mod =>
    have hp : specPre .mod a b = true ↔ b ≠ 0 := by simp [specPre]
    unfold refOp
    dsimp only
    by_cases hc : b = 0
    · rw [if_pos hc, if_neg (fun h => hp.1 h hc)]
    · rw [if_neg hc, if_pos (hp.2 hc)]
  case shl => simp only [refOp, specPre, if_true]; rw [BitVec.shiftLeft_eq', h63]
  case shr => simp only [refOp, specPre, if_true]; rw [BitVec.sshiftRight', h63]
  all_goals simp [refOp, specPre]

/-- Sums that fit, a sum that does not, a quotient that does not, and a negative shift count. -/
example : refOp .add 2 3 = some 5 ∧ refOp .add (BitVec.intMax 64) 1 = none ∧
    refOp .div (BitVec.intMin 64) (-1) = none ∧ refOp .mod (BitVec.intMin 64) (-1) = some 0 ∧
    refOp .div (-7) 2 = some (-3) ∧ refOp .shl 1 (-1) = some (BitVec.intMin 64) ∧
    refOp .lt (-1) 0 = some 1 := by decide +kernel

/-- The specifications cover the operations they name, with and without their preconditions. -/
example : specResult .mul 6 7 = some 42 ∧ specPre .mul 6 7 = true ∧
    specPre .mul (BitVec.intMax 64) 2 = false ∧ specPre .div (BitVec.intMin 64) (-1) = false := by
  decide +kernel

end Verif.Props
