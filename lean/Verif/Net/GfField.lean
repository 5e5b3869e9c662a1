import Verif.Net.Gf
import Mathlib.Algebra.Field.Basic
import Mathlib.Algebra.CharP.Two
/-! # The bytes with exclusive-or and `mul` are a field -/
namespace Verif.Net

def expLit : List Nat := [
   1, 2, 4, 8, 16, 32, 64, 128, 29, 58, 116, 232, 205, 135, 19, 38, 76, 152, 45, 90,
   180, 117, 234, 201, 143, 3, 6, 12, 24, 48, 96, 192, 157, 39, 78, 156, 37, 74, 148, 53,
   106, 212, 181, 119, 238, 193, 159, 35, 70, 140, 5, 10, 20, 40, 80, 160, 93, 186, 105, 210,
   185, 111, 222, 161, 95, 190, 97, 194, 153, 47, 94, 188, 101, 202, 137, 15, 30, 60, 120, 240,
   253, 231, 211, 187, 107, 214, 177, 127, 254, 225, 223, 163, 91, 182, 113, 226, 217, 175, 67, 134,
   17, 34, 68, 136, 13, 26, 52, 104, 208, 189, 103, 206, 129, 31, 62, 124, 248, 237, 199, 147,
   59, 118, 236, 197, 151, 51, 102, 204, 133, 23, 46, 92, 184, 109, 218, 169, 79, 158, 33, 66,
   132, 21, 42, 84, 168, 77, 154, 41, 82, 164, 85, 170, 73, 146, 57, 114, 228, 213, 183, 115,
   230, 209, 191, 99, 198, 145, 63, 126, 252, 229, 215, 179, 123, 246, 241, 255, 227, 219, 171, 75,
   150, 49, 98, 196, 149, 55, 110, 220, 165, 87, 174, 65, 130, 25, 50, 100, 200, 141, 7, 14,
   28, 56, 112, 224, 221, 167, 83, 166, 81, 162, 89, 178, 121, 242, 249, 239, 195, 155, 43, 86,
   172, 69, 138, 9, 18, 36, 72, 144, 61, 122, 244, 245, 247, 243, 251, 235, 203, 139, 11, 22,
   44, 88, 176, 125, 250, 233, 207, 131, 27, 54, 108, 216, 173, 71, 142, 1, 2, 4, 8, 16,
   32, 64, 128, 29, 58, 116, 232, 205, 135, 19, 38, 76, 152, 45, 90, 180, 117, 234, 201, 143,
   3, 6, 12, 24, 48, 96, 192, 157, 39, 78, 156, 37, 74, 148, 53, 106, 212, 181, 119, 238,
   193, 159, 35, 70, 140, 5, 10, 20, 40, 80, 160, 93, 186, 105, 210, 185, 111, 222, 161, 95,
   190, 97, 194, 153, 47, 94, 188, 101, 202, 137, 15, 30, 60, 120, 240, 253, 231, 211, 187, 107,
   214, 177, 127, 254, 225, 223, 163, 91, 182, 113, 226, 217, 175, 67, 134, 17, 34, 68, 136, 13,
   26, 52, 104, 208, 189, 103, 206, 129, 31, 62, 124, 248, 237, 199, 147, 59, 118, 236, 197, 151,
   51, 102, 204, 133, 23, 46, 92, 184, 109, 218, 169, 79, 158, 33, 66, 132, 21, 42, 84, 168,
   77, 154, 41, 82, 164, 85, 170, 73, 146, 57, 114, 228, 213, 183, 115, 230, 209, 191, 99, 198,
   145, 63, 126, 252, 229, 215, 179, 123, 246, 241, 255, 227, 219, 171, 75, 150, 49, 98, 196, 149,
   55, 110, 220, 165, 87, 174, 65, 130, 25, 50, 100, 200, 141, 7, 14, 28, 56, 112, 224, 221,
   167, 83, 166, 81, 162, 89, 178, 121, 242, 249, 239, 195, 155, 43, 86, 172, 69, 138, 9, 18,
   36, 72, 144, 61, 122, 244, 245, 247, 243, 251, 235, 203, 139, 11, 22, 44, 88, 176, 125, 250,
   233, 207, 131, 27, 54, 108, 216, 173, 71, 142, 1, 2]

def logLit : List Nat := [
   0, 0, 1, 25, 2, 50, 26, 198, 3, 223, 51, 238, 27, 104, 199, 75, 4, 100, 224, 14,
   52, 141, 239, 129, 28, 193, 105, 248, 200, 8, 76, 113, 5, 138, 101, 47, 225, 36, 15, 33,
   53, 147, 142, 218, 240, 18, 130, 69, 29, 181, 194, 125, 106, 39, 249, 185, 201, 154, 9, 120,
   77, 228, 114, 166, 6, 191, 139, 98, 102, 221, 48, 253, 226, 152, 37, 179, 16, 145, 34, 136,
   54, 208, 148, 206, 143, 150, 219, 189, 241, 210, 19, 92, 131, 56, 70, 64, 30, 66, 182, 163,
   195, 72, 126, 110, 107, 58, 40, 84, 250, 133, 186, 61, 202, 94, 155, 159, 10, 21, 121, 43,
   78, 212, 229, 172, 115, 243, 167, 87, 7, 112, 192, 247, 140, 128, 99, 13, 103, 74, 222, 237,
   49, 197, 254, 24, 227, 165, 153, 119, 38, 184, 180, 124, 17, 68, 146, 217, 35, 32, 137, 46,
   55, 63, 209, 91, 149, 188, 207, 205, 144, 135, 151, 178, 220, 252, 190, 97, 242, 86, 211, 171,
   20, 42, 93, 158, 132, 60, 57, 83, 71, 109, 65, 162, 31, 45, 67, 216, 183, 123, 164, 118,
   196, 23, 73, 236, 127, 12, 111, 246, 108, 161, 59, 82, 41, 157, 85, 170, 251, 96, 134, 177,
   187, 204, 62, 90, 203, 89, 95, 176, 156, 169, 160, 81, 11, 245, 22, 235, 122, 117, 44, 215,
   79, 174, 213, 233, 230, 231, 173, 232, 116, 214, 244, 234, 168, 80, 88, 175]

theorem gfExp_lit : gfExp.map Byte.toNat = expLit := by decide +kernel
theorem gfLog_lit : gfLog = logLit := by decide +kernel

theorem Byte.ext {a b : Byte} (h : a.toNat = b.toNat) : a = b := Fin.ext h

theorem Byte.lt (a : Byte) : a.toNat < 256 := Fin.isLt a

theorem ofNat_toNat (x : Nat) (h : x < 256) : (Byte.ofNat x).toNat = x := Nat.mod_eq_of_lt h

theorem ofNat_self (a : Byte) : Byte.ofNat a.toNat = a := Byte.ext (ofNat_toNat _ a.lt)

theorem xor_toNat (a b : Byte) : (a.xor b).toNat = a.toNat ^^^ b.toNat :=
  ofNat_toNat _ (Nat.xor_lt_two_pow (n := 8) a.lt b.lt)

theorem gexp_toNat (i : Nat) : (gexp i).toNat = expLit.getD i 0 := by
  unfold gexp
  rw [← gfExp_lit, List.getD_eq_getElem?_getD, List.getD_eq_getElem?_getD, List.getElem?_map]
  cases gfExp[i]? <;> rfl

theorem glog_eq (a : Byte) : glog a = logLit.getD a.toNat 0 := by unfold glog; rw [gfLog_lit]

/-- Powers of the generator, without tables. -/
def gpw : Nat → Nat
  | 0 => 1
  | i + 1 => xtime (gpw i)

theorem expLit_step : ∀ i < 511, expLit.getD (i + 1) 0 = xtime (expLit.getD i 0) := by decide +kernel
theorem expLit_zero : expLit.getD 0 0 = 1 := by decide +kernel
theorem expLit_period : expLit.getD 255 0 = 1 := by decide +kernel
theorem log_facts : ∀ a < 256, a ≠ 0 → logLit.getD a 0 < 255 ∧ expLit.getD (logLit.getD a 0) 0 = a := by
  decide +kernel
theorem exp_facts : ∀ i < 255, expLit.getD i 0 ≠ 0 ∧ expLit.getD i 0 < 256 ∧
    logLit.getD (expLit.getD i 0) 0 = i := by decide +kernel

theorem gpw_lit (i : Nat) (h : i < 512) : gpw i = expLit.getD i 0 := by
  induction i with
  | zero => exact expLit_zero.symm
  | succ i ih => rw [gpw, ih (by omega), expLit_step i (by omega)]

theorem gpw_iter (i j : Nat) : gpw (i + j) = xtime^[i] (gpw j) := by
  induction i generalizing j with
  | zero => simp
  | succ i ih =>
    rw [Function.iterate_succ_apply', ← ih]
    rw [show i + 1 + j = (i + j) + 1 by omega, gpw]

theorem gpw_255 (i : Nat) : gpw (i + 255) = gpw i := by
  rw [gpw_iter, gpw_lit 255 (by omega), expLit_period, show (1 : Nat) = gpw 0 from rfl, ← gpw_iter]
  rfl

theorem gpw_mod (i : Nat) : gpw i = gpw (i % 255) := by
  induction i using Nat.strongRecOn with
  | _ i ih =>
    by_cases h : i < 255
    · rw [Nat.mod_eq_of_lt h]
    · obtain ⟨j, rfl⟩ : ∃ j, i = j + 255 := ⟨i - 255, by omega⟩
      rw [gpw_255, ih j (by omega), Nat.add_mod_right]

theorem gpw_facts (i : Nat) : gpw i ≠ 0 ∧ gpw i < 256 ∧ logLit.getD (gpw i) 0 = i % 255 := by
  have := exp_facts (i % 255) (Nat.mod_lt _ (by decide))
  rw [gpw_mod, gpw_lit _ (by have := Nat.mod_lt i (show 0 < 255 by decide); omega)]
  exact this

theorem zero_iff (a : Byte) : a = Byte.ofNat 0 ↔ a.toNat = 0 :=
  ⟨fun h => by rw [h]; rfl, fun h => Byte.ext (by rw [h]; rfl)⟩

/-- The logarithm of a non-zero byte. -/
theorem glog_facts (a : Byte) (h : a ≠ Byte.ofNat 0) : glog a < 255 ∧ gpw (glog a) = a.toNat := by
  have h0 : a.toNat ≠ 0 := fun hc => h ((zero_iff a).mpr hc)
  obtain ⟨h1, h2⟩ := log_facts a.toNat a.lt h0
  rw [← glog_eq] at h1 h2
  exact ⟨h1, by rw [gpw_lit _ (by omega), h2]⟩

theorem gexp_gpw (i : Nat) (h : i < 512) : (gexp i).toNat = gpw i := by
  rw [gexp_toNat, gpw_lit i h]

theorem gexp_ne (i : Nat) (h : i < 512) : gexp i ≠ Byte.ofNat 0 := by
  rw [Ne, zero_iff, gexp_gpw i h]; exact (gpw_facts i).1

theorem glog_gexp (i : Nat) (h : i < 512) : glog (gexp i) = i % 255 := by
  rw [glog_eq, gexp_gpw i h]; exact (gpw_facts i).2.2

theorem gmul_zero_left (a : Byte) : gmul (Byte.ofNat 0) a = Byte.ofNat 0 := by simp [gmul]
theorem gmul_zero_right (a : Byte) : gmul a (Byte.ofNat 0) = Byte.ofNat 0 := by simp [gmul]

theorem gmul_eq (a b : Byte) (ha : a ≠ Byte.ofNat 0) (hb : b ≠ Byte.ofNat 0) :
    gmul a b = gexp (glog a + glog b) := by simp [gmul, ha, hb]

theorem gmul_comm (a b : Byte) : gmul a b = gmul b a := by
  unfold gmul; simp only [Nat.add_comm (glog a), or_comm]

theorem gexp_congr (i j : Nat) (hi : i < 512) (hj : j < 512) (h : i % 255 = j % 255) : gexp i = gexp j := by
  apply Byte.ext
  rw [gexp_gpw i hi, gexp_gpw j hj, gpw_mod, h, ← gpw_mod]

theorem gmul_assoc (a b c : Byte) : gmul (gmul a b) c = gmul a (gmul b c) := by
  by_cases ha : a = Byte.ofNat 0
  · subst ha; simp [gmul_zero_left]
  by_cases hb : b = Byte.ofNat 0
  · subst hb; simp [gmul_zero_left, gmul_zero_right]
  by_cases hc : c = Byte.ofNat 0
  · subst hc; simp [gmul_zero_right]
  have la := (glog_facts a ha).1
  have lb := (glog_facts b hb).1
  have lc := (glog_facts c hc).1
  rw [gmul_eq a b ha hb, gmul_eq b c hb hc, gmul_eq _ _ (gexp_ne _ (by omega)) hc,
    gmul_eq _ _ ha (gexp_ne _ (by omega)), glog_gexp _ (by omega), glog_gexp _ (by omega)]
  apply gexp_congr <;> omega

theorem glog_one : glog (Byte.ofNat 1) = 0 := by rw [glog_eq]; decide +kernel

theorem gmul_one (a : Byte) : gmul a (Byte.ofNat 1) = a := by
  by_cases ha : a = Byte.ofNat 0
  · subst ha; exact gmul_zero_left _
  · rw [gmul_eq a _ ha (by decide), glog_one]
    obtain ⟨h1, h2⟩ := glog_facts a ha
    apply Byte.ext
    rw [Nat.add_zero, gexp_gpw _ (by omega), h2]

theorem gdiv_mul (b : Byte) (hb : b ≠ Byte.ofNat 0) : gmul b (gdiv (Byte.ofNat 1) b) = Byte.ofNat 1 := by
  have lb := (glog_facts b hb).1
  have : gdiv (Byte.ofNat 1) b = gexp (255 - glog b) := by
    unfold gdiv
    rw [if_neg (by decide), glog_one, Nat.zero_add]
  rw [this, gmul_eq b _ hb (gexp_ne _ (by omega)), glog_gexp _ (by omega)]
  apply Byte.ext
  have h1 : (Byte.ofNat 1).toNat = gpw 0 := rfl
  have h2 : (glog b + (255 - glog b) % 255) % 255 = 0 := by omega
  rw [gexp_gpw _ (by omega), h1, gpw_mod, h2]

/-! ### Distributivity -/

theorem xtime_eq (x : Nat) (h : x < 256) : xtime x = (2 * x) ^^^ (if x.testBit 7 then 285 else 0) := by
  unfold xtime
  have e : x <<< 1 = 2 * x := by rw [Nat.shiftLeft_eq]; omega
  simp only [e]
  have key : ∀ x < 256, (2 * x &&& 256 ≠ 0) = (x.testBit 7 = true) := by
    intro x hx
    have : ∀ x < 256, (2 * x &&& 256 ≠ 0) ↔ (x.testBit 7 = true) := by decide +kernel
    exact propext (this x hx)
  simp only [key x h]
  split <;> simp

theorem two_mul_xor (a b : Nat) : 2 * (a ^^^ b) = (2 * a) ^^^ (2 * b) := by
  have := Nat.shiftLeft_xor_distrib (a := a) (b := b) (i := 1)
  simp only [Nat.shiftLeft_eq, Nat.pow_one] at this
  rw [Nat.mul_comm, this, Nat.mul_comm a, Nat.mul_comm b]

theorem xtime_xor (a b : Nat) (ha : a < 256) (hb : b < 256) : xtime (a ^^^ b) = xtime a ^^^ xtime b := by
  rw [xtime_eq a ha, xtime_eq b hb, xtime_eq _ (Nat.xor_lt_two_pow (n := 8) ha hb), two_mul_xor, Nat.testBit_xor]
  cases h1 : a.testBit 7 <;> cases h2 : b.testBit 7
  · simp
  · simp [Nat.xor_assoc]
  · simp only [Bool.xor_false, if_true, Bool.false_eq_true, if_false, Nat.xor_zero]
    rw [Nat.xor_assoc, Nat.xor_comm (2 * b), Nat.xor_assoc]
  · simp only [Bool.xor_self, if_true, Bool.false_eq_true, if_false, Nat.xor_zero]
    rw [Nat.xor_assoc (2 * a), Nat.xor_comm 285, Nat.xor_assoc (2 * b), Nat.xor_self, Nat.xor_zero]

theorem xtime_lt : ∀ x < 256, xtime x < 256 := by decide +kernel

theorem iter_lt (i x : Nat) (h : x < 256) : xtime^[i] x < 256 := by
  induction i with
  | zero => exact h
  | succ i ih => rw [Function.iterate_succ_apply']; exact xtime_lt _ ih

theorem iter_xor (i a b : Nat) (ha : a < 256) (hb : b < 256) :
    xtime^[i] (a ^^^ b) = xtime^[i] a ^^^ xtime^[i] b := by
  induction i with
  | zero => rfl
  | succ i ih =>
    rw [Function.iterate_succ_apply', ih, xtime_xor _ _ (iter_lt i a ha) (iter_lt i b hb)]
    rw [Function.iterate_succ_apply', Function.iterate_succ_apply']

theorem iter_zero (i : Nat) : xtime^[i] 0 = 0 := by
  induction i with
  | zero => rfl
  | succ i ih => rw [Function.iterate_succ_apply', ih]; rfl

theorem gmul_iter (a b : Byte) (ha : a ≠ Byte.ofNat 0) : (gmul a b).toNat = xtime^[glog a] b.toNat := by
  by_cases hb : b = Byte.ofNat 0
  · subst hb
    rw [gmul_zero_right]
    change 0 = xtime^[glog a] 0
    rw [iter_zero]
  · have la := (glog_facts a ha).1
    obtain ⟨lb, lb2⟩ := glog_facts b hb
    rw [gmul_eq a b ha hb, gexp_gpw _ (by omega), gpw_iter, lb2]

theorem gmul_xor (a b c : Byte) : gmul a (b.xor c) = (gmul a b).xor (gmul a c) := by
  by_cases ha : a = Byte.ofNat 0
  · subst ha; simp only [gmul_zero_left]; rfl
  · apply Byte.ext
    rw [xor_toNat, gmul_iter a _ ha, gmul_iter a _ ha, gmul_iter a _ ha, xor_toNat,
      iter_xor _ _ _ b.lt c.lt]

theorem xor_self' (a : Byte) : a.xor a = Byte.ofNat 0 := Byte.ext (by rw [xor_toNat, Nat.xor_self]; rfl)
theorem xor_comm' (a b : Byte) : a.xor b = b.xor a := Byte.ext (by rw [xor_toNat, xor_toNat, Nat.xor_comm])
theorem xor_assoc' (a b c : Byte) : (a.xor b).xor c = a.xor (b.xor c) :=
  Byte.ext (by simp only [xor_toNat, Nat.xor_assoc])
theorem xor_zero' (a : Byte) : a.xor (Byte.ofNat 0) = a :=
  Byte.ext (by rw [xor_toNat]; exact Nat.xor_zero _)

instance : Zero Byte := ⟨Byte.ofNat 0⟩
instance : One Byte := ⟨Byte.ofNat 1⟩
instance : Add Byte := ⟨Byte.xor⟩
instance : Mul Byte := ⟨gmul⟩
instance : Neg Byte := ⟨id⟩

/-- The field: addition is exclusive-or, multiplication is the code's `mul`, the inverse is the
code's `div(1, ·)`. -/
instance instFieldByte : Field Byte where
  add := Byte.xor
  zero := Byte.ofNat 0
  add_assoc := xor_assoc'
  zero_add a := (xor_comm' _ _).trans (xor_zero' a)
  add_zero := xor_zero'
  neg a := a
  sub := Byte.xor
  sub_eq_add_neg _ _ := rfl
  neg_add_cancel := xor_self'
  add_comm := xor_comm'
  nsmul := nsmulRec
  zsmul := zsmulRec
  mul := gmul
  one := Byte.ofNat 1
  mul_assoc := gmul_assoc
  one_mul a := (gmul_comm _ _).trans (gmul_one a)
  mul_one := gmul_one
  left_distrib := gmul_xor
  right_distrib a b c := by
    change gmul (Byte.xor a b) c = Byte.xor (gmul a c) (gmul b c)
    rw [gmul_comm, gmul_xor, gmul_comm c, gmul_comm c]
  zero_mul := gmul_zero_left
  mul_zero := gmul_zero_right
  mul_comm := gmul_comm
  inv a := if a = Byte.ofNat 0 then Byte.ofNat 0 else gdiv (Byte.ofNat 1) a
  exists_pair_ne := ⟨Byte.ofNat 0, Byte.ofNat 1, by decide⟩
  mul_inv_cancel a ha := by
    change gmul a (if a = Byte.ofNat 0 then _ else _) = _
    rw [if_neg (show ¬ a = Byte.ofNat 0 from ha)]; exact gdiv_mul a ha
  inv_zero := if_pos rfl
  nnqsmul := _
  nnqsmul_def _ _ := rfl
  qsmul := _
  qsmul_def _ _ := rfl

theorem xor_eq_add (a b : Byte) : a.xor b = a + b := rfl
theorem gmul_eq_mul (a b : Byte) : gmul a b = a * b := rfl
theorem zero_eq : Byte.ofNat 0 = (0 : Byte) := rfl
theorem one_eq : Byte.ofNat 1 = (1 : Byte) := rfl
theorem add_self_byte (a : Byte) : a + a = 0 := xor_self' a
theorem gdiv_eq (b : Byte) (hb : b ≠ 0) : gdiv 1 b = b⁻¹ := by
  change gdiv (Byte.ofNat 1) b = if b = Byte.ofNat 0 then _ else _
  rw [if_neg (show ¬ b = Byte.ofNat 0 from hb)]
theorem gpow_eq (b : Byte) (e : Nat) : gpow b e = b ^ e := by
  induction e with
  | zero => rw [pow_zero]; rfl
  | succ e ih => rw [pow_succ, gpow, ih]; rfl

end Verif.Net
