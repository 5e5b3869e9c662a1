import Mathlib.Tactic.Ring
import Mathlib.Tactic.Linarith
import Mathlib.Data.Nat.Bitwise
/-! # Magnitude primitives of `BigInt` — model of `logicaffeine_base/src/numeric.rs:81-197`

A limb (`u64`) is a natural number; the casts `as u64` are `% 2^64`, the shifts `>> 64` of a `u128` are
`/ 2^64`.  The intermediate `u128`/`i128` values are exact: the lemmas below bound every one of them by
what the limbs allow (`carry ≤ 1`, `carry < 2^64`), far below `2^127`. -/
namespace Verif.Num

/-- The limb base. -/
abbrev B : Nat := 18446744073709551616

theorem B_eq : B = 2 ^ 64 := by norm_num

/-- `normalize` (numeric.rs:84-89): drop trailing zero limbs. -/
def normalize : List Nat → List Nat
  | [] => []
  | d :: t => match normalize t with
    | [] => if d = 0 then [] else [d]
    | d' :: t' => d :: d' :: t'

/-- The loop of `mag_cmp` over limbs from the most significant one (numeric.rs:95-101), on lists that are
already reversed. -/
def cmpRev : List Nat → List Nat → Ordering
  | [], _ => .eq
  | _ :: _, [] => .eq
  | a :: as, b :: bs => match compare a b with
    | .eq => cmpRev as bs
    | o => o

/-- `mag_cmp` (numeric.rs:92-105). -/
def magCmp (a b : List Nat) : Ordering :=
  match compare a.length b.length with
  | .eq => cmpRev a.reverse b.reverse
  | o => o

/-- The loop of `mag_add` (numeric.rs:111-121): `i` runs over the longer of the two lists, missing limbs
read as zero. -/
def addLoop : List Nat → List Nat → Nat → List Nat
  | [], [], carry => if carry ≠ 0 then [carry % B] else []
  | a :: as, [], carry => (a + 0 + carry) % B :: addLoop as [] ((a + 0 + carry) / B)
  | [], b :: bs, carry => (0 + b + carry) % B :: addLoop [] bs ((0 + b + carry) / B)
  | a :: as, b :: bs, carry => (a + b + carry) % B :: addLoop as bs ((a + b + carry) / B)

/-- `mag_add` (numeric.rs:108-122). -/
def magAdd (a b : List Nat) : List Nat := normalize (addLoop a b 0)

/-- The loop of `mag_sub` (numeric.rs:129-140): `i` runs over `a`. -/
def subLoop : List Nat → List Nat → Int → List Nat
  | [], _, _ => []
  | a :: as, bs, borrow =>
    let diff : Int := (a : Int) - (bs.headD 0 : Int) - borrow
    if diff < 0 then (diff + B).toNat % B :: subLoop as bs.tail 1
    else diff.toNat % B :: subLoop as bs.tail 0

/-- `mag_sub` (numeric.rs:125-143); the caller guarantees `a ≥ b`. -/
def magSub (a b : List Nat) : List Nat := normalize (subLoop a b 0)

/-- The inner loop of `mag_mul` for one limb `av` of `a` (numeric.rs:151-158), on the suffix of `out` that
starts at index `i`. Running out of `out` (an index panic) is the last case. -/
def mulRow (av : Nat) : List Nat → List Nat → Nat → List Nat
  | [], o :: os, carry => (o + carry % B) % B :: os
  | b :: bs, o :: os, carry =>
    let cur := o + av * b + carry
    cur % B :: mulRow av bs os (cur / B)
  | _, [], _ => []

/-- The outer loop of `mag_mul` (numeric.rs:150-159), on the suffix of `out` that starts at index `i`. -/
def mulRows (b : List Nat) : List Nat → List Nat → List Nat
  | [], out => out
  | a :: as, out => match mulRow a b out 0 with
    | [] => []
    | o :: os => o :: mulRows b as os

/-- `mag_mul` (numeric.rs:146-161). -/
def magMul (a b : List Nat) : List Nat :=
  if a = [] ∨ b = [] then []
  else normalize (mulRows b a (List.replicate (a.length + b.length) 0))

/-- The loop of `mag_shl1` (numeric.rs:167-173); `(limb << 1) | carry` drops the top bit. -/
def shlLoop : List Nat → Nat → List Nat
  | [], carry => if carry ≠ 0 then [carry] else []
  | d :: t, carry => ((d <<< 1) % B ||| carry) :: shlLoop t (d >>> 63)

/-- `mag_shl1` (numeric.rs:164-175). -/
def magShl1 (a : List Nat) (bit : Nat) : List Nat := normalize (shlLoop a (bit &&& 1))

/-- One iteration of the loop of `mag_divrem` (numeric.rs:188-195). -/
def divStep (a b : List Nat) (i : Nat) (qr : List Nat × List Nat) : List Nat × List Nat :=
  let bit := (a.getD (i / 64) 0 >>> (i % 64)) &&& 1
  let r := magShl1 qr.2 bit
  if magCmp r b ≠ .lt then
    (qr.1.set (i / 64) (qr.1.getD (i / 64) 0 ||| (1 <<< (i % 64))), magSub r b)
  else (qr.1, r)

/-- The loop `for i in (0..n).rev()` of `mag_divrem` (numeric.rs:188-195). -/
def divLoop (a b : List Nat) : Nat → List Nat × List Nat → List Nat × List Nat
  | 0, qr => qr
  | i + 1, qr => divLoop a b i (divStep a b i qr)

/-- `mag_divrem` (numeric.rs:180-197); the caller guarantees that `b` is not empty. -/
def magDivrem (a b : List Nat) : List Nat × List Nat :=
  if magCmp a b = .lt then ([], a)
  else
    let qr := divLoop a b (a.length * 64) (List.replicate a.length 0, [])
    (normalize qr.1, normalize qr.2)

/-! ## What the limbs mean -/

/-- The number denoted by little-endian limbs. -/
def val : List Nat → Nat
  | [] => 0
  | d :: t => d + B * val t

/-- Every limb is a `u64`. -/
def Limbs (l : List Nat) : Prop := ∀ d ∈ l, d < B

/-- Limbs without trailing zero. -/
def Norm (l : List Nat) : Prop := Limbs l ∧ l.getLast? ≠ some 0

theorem Limbs.nil : Limbs [] := by simp [Limbs]
theorem Limbs.cons {d t} : Limbs (d :: t) ↔ d < B ∧ Limbs t := by simp [Limbs]

theorem val_normalize (l : List Nat) : val (normalize l) = val l := by
  induction l with
  | nil => rfl
  | cons d t ih =>
    simp only [normalize]
    cases h : normalize t with
    | nil =>
      rw [h] at ih
      have : val t = 0 := ih.symm
      by_cases hd : d = 0 <;> simp [hd, val, this]
    | cons d' t' => rw [h] at ih; simp only [val] at ih ⊢; rw [ih]

theorem normalize_subset (l : List Nat) : ∀ d ∈ normalize l, d ∈ l := by
  induction l with
  | nil => simp [normalize]
  | cons d t ih =>
    simp only [normalize]
    cases h : normalize t with
    | nil => by_cases hd : d = 0 <;> simp [hd]
    | cons d' t' =>
      rw [h] at ih
      intro x hx
      rcases List.mem_cons.1 hx with rfl | hx
      · exact List.mem_cons_self
      · exact List.mem_cons_of_mem _ (ih _ hx)

theorem normalize_last (l : List Nat) : (normalize l).getLast? ≠ some 0 := by
  induction l with
  | nil => simp [normalize]
  | cons d t ih =>
    simp only [normalize]
    cases h : normalize t with
    | nil => by_cases hd : d = 0 <;> simp [hd]
    | cons d' t' => rw [h] at ih; simpa [List.getLast?_cons_cons] using ih

theorem norm_normalize {l : List Nat} (h : Limbs l) : Norm (normalize l) :=
  ⟨fun d hd => h d (normalize_subset l d hd), normalize_last l⟩

theorem val_lt {l : List Nat} (h : Limbs l) : val l < B ^ l.length := by
  induction l with
  | nil => simp [val]
  | cons d t ih =>
    have ⟨h1, h2⟩ := Limbs.cons.1 h
    have := ih h2
    simp only [val, List.length_cons, pow_succ]
    nlinarith

theorem val_ge {l : List Nat} (h : l.getLast? ≠ some 0) (hne : l ≠ []) : B ^ (l.length - 1) ≤ val l := by
  induction l with
  | nil => exact absurd rfl hne
  | cons d t ih =>
    cases t with
    | nil =>
      simp only [List.getLast?_singleton, ne_eq, Option.some.injEq] at h
      simp [val]; omega
    | cons d' t' =>
      rw [List.getLast?_cons_cons] at h
      have := ih h (by simp)
      simp only [List.length_cons, Nat.add_sub_cancel] at this ⊢
      rw [val, pow_succ]
      nlinarith

theorem val_eq_zero {l : List Nat} (h : l.getLast? ≠ some 0) : val l = 0 ↔ l = [] := by
  constructor
  · intro hv
    by_contra hne
    have := val_ge h hne
    have h2 : 0 < B ^ (l.length - 1) := by positivity
    omega
  · rintro rfl; rfl

theorem val_append (a b : List Nat) : val (a ++ b) = val a + B ^ a.length * val b := by
  induction a with
  | nil => simp [val]
  | cons d t ih => simp only [List.cons_append, val, ih, List.length_cons, pow_succ]; ring

theorem val_reverse_cons (d : Nat) (t : List Nat) :
    val (d :: t).reverse = val t.reverse + B ^ t.length * d := by
  simp [val_append, val]

theorem Limbs.reverse {l} : Limbs l.reverse ↔ Limbs l := by simp [Limbs]

theorem cmpRev_eq {a b : List Nat} (ha : Limbs a) (hb : Limbs b) (hl : a.length = b.length) :
    cmpRev a b = compare (val a.reverse) (val b.reverse) := by
  induction a generalizing b with
  | nil => cases b with
    | nil => simp [cmpRev, val]
    | cons _ _ => simp at hl
  | cons x xs ih =>
    cases b with
    | nil => simp at hl
    | cons y ys =>
      have ⟨hx, hxs⟩ := Limbs.cons.1 ha
      have ⟨hy, hys⟩ := Limbs.cons.1 hb
      simp only [List.length_cons, Nat.add_right_cancel_iff] at hl
      have h1 := val_lt (Limbs.reverse.2 hxs)
      have h2 := val_lt (Limbs.reverse.2 hys)
      rw [List.length_reverse] at h1 h2
      rw [val_reverse_cons, val_reverse_cons, cmpRev]
      rw [hl] at h1 ⊢
      rcases Nat.lt_trichotomy x y with h | h | h
      · rw [Nat.compare_eq_lt.2 h]
        symm; rw [Nat.compare_eq_lt]; nlinarith
      · subst h
        rw [Nat.compare_eq_eq.2 rfl]
        simp only
        rw [ih hxs hys hl]
        rcases Nat.lt_trichotomy (val xs.reverse) (val ys.reverse) with h | h | h
        · rw [Nat.compare_eq_lt.2 h, Nat.compare_eq_lt.2 (by omega)]
        · rw [Nat.compare_eq_eq.2 h, Nat.compare_eq_eq.2 (by omega)]
        · rw [Nat.compare_eq_gt.2 h, Nat.compare_eq_gt.2 (by omega)]
      · rw [Nat.compare_eq_gt.2 h]
        symm; rw [Nat.compare_eq_gt]; nlinarith

theorem magCmp_eq {a b : List Nat} (ha : Norm a) (hb : Norm b) : magCmp a b = compare (val a) (val b) := by
  have key : ∀ {x y : List Nat}, Norm x → Norm y → x.length < y.length → val x < val y := by
    intro x y hx hy hl
    have h1 := val_lt hx.1
    have h2 := val_ge hy.2 (by rintro rfl; simp at hl)
    have : B ^ x.length ≤ B ^ (y.length - 1) := Nat.pow_le_pow_right (by decide) (by omega)
    omega
  unfold magCmp
  rcases Nat.lt_trichotomy a.length b.length with h | h | h
  · rw [Nat.compare_eq_lt.2 h]; simp only; symm; rw [Nat.compare_eq_lt]; exact key ha hb h
  · rw [Nat.compare_eq_eq.2 h]; simp only
    rw [cmpRev_eq (Limbs.reverse.2 ha.1) (Limbs.reverse.2 hb.1) (by simpa using h)]
    simp
  · rw [Nat.compare_eq_gt.2 h]; simp only; symm; rw [Nat.compare_eq_gt]; exact key hb ha h

/-! ## Addition -/

theorem addLoop_spec {a b : List Nat} {c : Nat} (ha : Limbs a) (hb : Limbs b) (hc : c ≤ 1) :
    val (addLoop a b c) = val a + val b + c ∧ Limbs (addLoop a b c) := by
  have hB : (0:Nat) < B := by decide
  have dm : ∀ n : Nat, n % B + B * (n / B) = n := fun n => Nat.mod_add_div n B
  have hml : ∀ n : Nat, n % B < B := fun n => Nat.mod_lt _ hB
  have hcar : ∀ n : Nat, n < 2 * B → n / B ≤ 1 := fun n h => by
    have := Nat.div_lt_iff_lt_mul hB |>.2 h; omega
  induction a generalizing b c with
  | nil =>
    induction b generalizing c with
    | nil =>
      rw [addLoop]
      have : c = 0 ∨ c = 1 := by omega
      rcases this with rfl | rfl <;> simp [val, Limbs]
    | cons y ys ih =>
      have ⟨hy, hys⟩ := Limbs.cons.1 hb
      rw [addLoop]
      have ⟨h1, h2⟩ := ih (c := (0 + y + c) / B) hys (hcar _ (by omega))
      refine ⟨?_, Limbs.cons.2 ⟨hml _, h2⟩⟩
      simp only [val] at h1 ⊢
      rw [h1]; have := dm (0 + y + c); simp only [Nat.mul_add]; omega
  | cons x xs ih =>
    have ⟨hx, hxs⟩ := Limbs.cons.1 ha
    cases b with
    | nil =>
      rw [addLoop]
      have ⟨h1, h2⟩ := ih (b := []) (c := (x + 0 + c) / B) hxs hb (hcar _ (by omega))
      refine ⟨?_, Limbs.cons.2 ⟨hml _, h2⟩⟩
      simp only [val] at h1 ⊢
      rw [h1]; have := dm (x + 0 + c); simp only [Nat.mul_add]; omega
    | cons y ys =>
      have ⟨hy, hys⟩ := Limbs.cons.1 hb
      rw [addLoop]
      have ⟨h1, h2⟩ := ih (b := ys) (c := (x + y + c) / B) hxs hys (hcar _ (by omega))
      refine ⟨?_, Limbs.cons.2 ⟨hml _, h2⟩⟩
      simp only [val] at h1 ⊢
      rw [h1]; have := dm (x + y + c); simp only [Nat.mul_add]; omega

theorem magAdd_spec {a b : List Nat} (ha : Limbs a) (hb : Limbs b) :
    val (magAdd a b) = val a + val b ∧ Norm (magAdd a b) := by
  have ⟨h1, h2⟩ := addLoop_spec ha hb (Nat.zero_le 1)
  exact ⟨by rw [magAdd, val_normalize, h1]; rfl, norm_normalize h2⟩

/-! ## Subtraction -/

theorem subLoop_spec {a b : List Nat} {c : Nat} (ha : Limbs a) (hb : Limbs b) (hc : c ≤ 1)
    (hle : val b + c ≤ val a) :
    val (subLoop a b c) = val a - (val b + c) ∧ Limbs (subLoop a b c) := by
  have hB : (0:Nat) < B := by decide
  induction a generalizing b c with
  | nil =>
    rw [subLoop]
    exact ⟨by simp [val], Limbs.nil⟩
  | cons x xs ih =>
    have ⟨hx, hxs⟩ := Limbs.cons.1 ha
    have hb' : val b = b.headD 0 + B * val b.tail := by cases b <;> simp [val]
    have hh : b.headD 0 < B := by
      cases b with
      | nil => simpa using hB
      | cons y ys => exact (Limbs.cons.1 hb).1
    have ht : Limbs b.tail := by
      cases b with
      | nil => exact hb
      | cons y ys => exact (Limbs.cons.1 hb).2
    rw [subLoop]
    generalize hy : b.headD 0 = y at *
    rw [hb'] at hle ⊢
    simp only [val] at hle ⊢
    by_cases hd : (x:Int) - (y:Int) - (c:Int) < 0
    · simp only [hd, if_true]
      have hlt : x < y + c := by omega
      have hle' : val b.tail + 1 ≤ val xs := by
        by_contra hcon
        have : val xs ≤ val b.tail := by omega
        have := Nat.mul_le_mul_left B this
        omega
      have ⟨h1, h2⟩ := ih (c := 1) hxs ht (by omega) hle'
      have e : ((x:Int) - y - c + (B:Nat)).toNat = x + B - (y + c) := by omega
      have hlt2 : x + B - (y + c) < B := by omega
      rw [e, Nat.mod_eq_of_lt hlt2]
      simp only [Nat.cast_one] at h1 h2
      refine ⟨?_, Limbs.cons.2 ⟨hlt2, h2⟩⟩
      simp only [val]
      rw [h1]
      have : B * (val xs - (val b.tail + 1)) = B * val xs - (B * val b.tail + B) := by
        rw [Nat.mul_sub, Nat.mul_add, Nat.mul_one]
      rw [this]
      have := Nat.mul_le_mul_left B hle'
      rw [Nat.mul_add] at this
      omega
    · simp only [hd, if_false]
      have hle' : val b.tail + 0 ≤ val xs := by
        by_contra hcon
        have : val xs + 1 ≤ val b.tail := by omega
        have := Nat.mul_le_mul_left B this
        rw [Nat.mul_add] at this
        omega
      have ⟨h1, h2⟩ := ih (c := 0) hxs ht (by omega) hle'
      have e : ((x:Int) - y - c).toNat = x - (y + c) := by omega
      have hlt2 : x - (y + c) < B := by omega
      rw [e, Nat.mod_eq_of_lt hlt2]
      simp only [Nat.cast_zero] at h1 h2
      refine ⟨?_, Limbs.cons.2 ⟨hlt2, h2⟩⟩
      simp only [val]
      rw [h1]
      have : B * (val xs - (val b.tail + 0)) = B * val xs - (B * val b.tail) := by
        rw [Nat.mul_sub, Nat.add_zero]
      rw [this]
      have := Nat.mul_le_mul_left B hle'
      rw [Nat.add_zero] at this
      omega

theorem magSub_spec {a b : List Nat} (ha : Limbs a) (hb : Limbs b) (hle : val b ≤ val a) :
    val (magSub a b) = val a - val b ∧ Norm (magSub a b) := by
  have ⟨h1, h2⟩ := subLoop_spec (c := 0) ha hb (by omega) (by simpa using hle)
  simp only [Nat.cast_zero] at h1 h2
  exact ⟨by rw [magSub, val_normalize, h1]; rfl, norm_normalize h2⟩

/-! ## Multiplication -/

theorem mulRow_spec {av : Nat} {b out : List Nat} {c : Nat} (hav : av < B) (hb : Limbs b) (ho : Limbs out)
    (hc : c < B) (h0 : out[b.length]? = some 0) :
    val (mulRow av b out c) = val out + av * val b + c ∧ Limbs (mulRow av b out c) ∧
    (mulRow av b out c).length = out.length ∧
    ∀ k, b.length < k → (mulRow av b out c)[k]? = out[k]? := by
  have hB : (0:Nat) < B := by decide
  induction b generalizing out c with
  | nil =>
    cases out with
    | nil => simp at h0
    | cons o os =>
      simp only [List.length_nil, List.getElem?_cons_zero, Option.some.injEq] at h0
      subst h0
      have e : (0 + c % B) % B = c := by
        rw [Nat.zero_add, Nat.mod_mod, Nat.mod_eq_of_lt hc]
      rw [mulRow, e]
      refine ⟨by simp only [val]; omega, Limbs.cons.2 ⟨hc, (Limbs.cons.1 ho).2⟩, rfl, ?_⟩
      intro k hk
      cases k with
      | zero => simp at hk
      | succ k => rfl
  | cons y ys ih =>
    cases out with
    | nil => simp at h0
    | cons o os =>
      have ⟨hy, hys⟩ := Limbs.cons.1 hb
      have ⟨hoo, hos⟩ := Limbs.cons.1 ho
      simp only [List.length_cons, List.getElem?_cons_succ] at h0
      have hcur : o + av * y + c < B * B := by
        have h1 : av * y ≤ (B - 1) * (B - 1) := Nat.mul_le_mul (by omega) (by omega)
        have h2 : (B - 1) * (B - 1) + (B - 1) + (B - 1) < B * B := by decide
        omega
      have hc' : (o + av * y + c) / B < B := Nat.div_lt_of_lt_mul hcur
      rw [mulRow]
      have ⟨h1, h2, h3, h4⟩ := ih hys hos hc' h0
      refine ⟨?_, Limbs.cons.2 ⟨Nat.mod_lt _ hB, h2⟩, by simp [h3], ?_⟩
      · simp only [val]
        rw [h1]
        have := Nat.mod_add_div (o + av * y + c) B
        have e : B * (val os + av * val ys + (o + av * y + c) / B) =
          B * val os + av * (B * val ys) + B * ((o + av * y + c) / B) := by ring
        rw [e, Nat.mul_add av]
        omega
      · intro k hk
        cases k with
        | zero => simp at hk
        | succ k =>
          simp only [List.length_cons] at hk
          simpa using h4 k (by omega)

theorem mulRows_spec {b a out : List Nat} (ha : Limbs a) (hb : Limbs b) (ho : Limbs out)
    (h0 : ∀ k, k < a.length → out[b.length + k]? = some 0) :
    val (mulRows b a out) = val out + val a * val b ∧ Limbs (mulRows b a out) := by
  induction a generalizing out with
  | nil => simp [mulRows, val, ho]
  | cons x xs ih =>
    have ⟨hx, hxs⟩ := Limbs.cons.1 ha
    have ⟨h1, h2, h3, h4⟩ := mulRow_spec (c := 0) hx hb ho (by decide) (by simpa using h0 0 (by simp))
    rw [mulRows]
    cases hr : mulRow x b out 0 with
    | nil =>
      rw [hr] at h3
      have := h0 0 (by simp)
      have hlt := (List.getElem?_eq_some_iff.1 this).1
      simp only [List.length_nil] at h3
      omega
    | cons o os =>
      rw [hr] at h1 h2 h4
      have ⟨hoo, hos⟩ := Limbs.cons.1 h2
      have ⟨g1, g2⟩ := ih (out := os) hxs hos (by
        intro k hk
        have a1 := h4 (b.length + (k + 1)) (by omega)
        rw [h0 (k + 1) (by simpa using hk)] at a1
        rw [← a1, ← Nat.add_assoc, List.getElem?_cons_succ])
      refine ⟨?_, Limbs.cons.2 ⟨hoo, g2⟩⟩
      simp only [val] at h1 ⊢
      rw [g1]
      have e : B * (val os + val xs * val b) = B * val os + B * val xs * val b := by ring
      rw [e, Nat.add_mul]
      omega

theorem val_replicate (n : Nat) : val (List.replicate n 0) = 0 := by
  induction n with
  | zero => rfl
  | succ n ih => simp [List.replicate_succ, val, ih]

theorem limbs_replicate (n : Nat) : Limbs (List.replicate n 0) := by
  intro d hd; rw [List.eq_of_mem_replicate hd]; decide

theorem norm_nil : Norm [] := ⟨Limbs.nil, by simp⟩

theorem magMul_spec {a b : List Nat} (ha : Limbs a) (hb : Limbs b) :
    val (magMul a b) = val a * val b ∧ Norm (magMul a b) := by
  unfold magMul
  by_cases h : a = [] ∨ b = []
  · rw [if_pos h]
    refine ⟨?_, norm_nil⟩
    rcases h with rfl | rfl <;> simp [val]
  · rw [if_neg h]
    have ⟨h1, h2⟩ := mulRows_spec ha hb (limbs_replicate (a.length + b.length)) (by
      intro k hk
      rw [List.getElem?_replicate, if_pos (by omega)])
    exact ⟨by rw [val_normalize, h1, val_replicate, Nat.zero_add], norm_normalize h2⟩

/-! ## Shift and division -/

theorem shlLoop_spec {a : List Nat} {c : Nat} (ha : Limbs a) (hc : c ≤ 1) :
    val (shlLoop a c) = 2 * val a + c ∧ Limbs (shlLoop a c) := by
  induction a generalizing c with
  | nil =>
    rw [shlLoop]
    have : c = 0 ∨ c = 1 := by omega
    rcases this with rfl | rfl <;> simp [val, Limbs]
  | cons d t ih =>
    have ⟨hd, ht⟩ := Limbs.cons.1 ha
    rw [shlLoop]
    have hs : d >>> 63 ≤ 1 := by
      rw [Nat.shiftRight_eq_div_pow]
      have : d / 2 ^ 63 < 2 := Nat.div_lt_of_lt_mul (by simpa using hd)
      omega
    have ⟨h1, h2⟩ := ih (c := d >>> 63) ht hs
    have e : (d <<< 1) % B ||| c = 2 * (d % 2 ^ 63) + c := by
      have : (d <<< 1) % B = 2 * (d % 2 ^ 63) := by
        rw [Nat.shiftLeft_eq]; simp only [B]; omega
      rw [this]
      have := Nat.two_pow_add_eq_or_of_lt (i := 1) (b := c) (by omega) (d % 2 ^ 63)
      simpa using this.symm
    rw [e]
    refine ⟨?_, Limbs.cons.2 ⟨?_, h2⟩⟩
    · simp only [val]
      rw [h1, Nat.shiftRight_eq_div_pow]
      simp only [B]
      omega
    · have : d % 2 ^ 63 < 2 ^ 63 := Nat.mod_lt _ (by decide)
      simp only [B]; omega

theorem magShl1_spec {a : List Nat} {bit : Nat} (ha : Limbs a) (hb : bit ≤ 1) :
    val (magShl1 a bit) = 2 * val a + bit ∧ Norm (magShl1 a bit) := by
  have e : bit &&& 1 = bit := by rw [Nat.and_one_is_mod]; omega
  have ⟨h1, h2⟩ := shlLoop_spec (c := bit) ha hb
  unfold magShl1
  rw [e]
  exact ⟨by rw [val_normalize, h1], norm_normalize h2⟩

theorem val_div_pow {l : List Nat} (h : Limbs l) (k : Nat) : val l / B ^ k = val (l.drop k) := by
  induction k generalizing l with
  | zero => simp
  | succ k ih =>
    cases l with
    | nil => simp [val]
    | cons d t =>
      have ⟨hd, ht⟩ := Limbs.cons.1 h
      rw [List.drop_succ_cons, ← ih ht, pow_succ', ← Nat.div_div_eq_div_mul, val,
        Nat.add_mul_div_left _ _ (by decide : 0 < B), Nat.div_eq_of_lt hd, Nat.zero_add]

theorem val_drop (l : List Nat) (k : Nat) : val (l.drop k) = l.getD k 0 + B * val (l.drop (k + 1)) := by
  induction l generalizing k with
  | nil => simp [val]
  | cons d t ih =>
    cases k with
    | zero => simp [val]
    | succ k => simpa using ih k

theorem bit_eq {l : List Nat} (h : Limbs l) (i : Nat) :
    (l.getD (i / 64) 0 >>> (i % 64)) &&& 1 = val l / 2 ^ i % 2 := by
  have e : 2 ^ i = B ^ (i / 64) * 2 ^ (i % 64) := by
    rw [B_eq, ← pow_mul, ← pow_add, Nat.div_add_mod]
  rw [e, ← Nat.div_div_eq_div_mul, val_div_pow h, val_drop, Nat.and_one_is_mod, Nat.shiftRight_eq_div_pow]
  have hs : i % 64 < 64 := Nat.mod_lt _ (by decide)
  generalize i % 64 = s at hs
  have e2 : B = 2 ^ s * (2 * 2 ^ (63 - s)) := by
    rw [← pow_succ', ← pow_add, B_eq]; congr 1; omega
  rw [e2, Nat.mul_assoc, Nat.add_mul_div_left _ _ (by positivity), Nat.mul_assoc, Nat.add_mul_mod_self_left]

theorem val_set {l : List Nat} {k x : Nat} (hk : k < l.length) :
    val (l.set k x) + B ^ k * l.getD k 0 = val l + B ^ k * x := by
  induction l generalizing k with
  | nil => simp at hk
  | cons d t ih =>
    cases k with
    | zero => simp [val]; omega
    | succ k =>
      have := ih (k := k) (by simpa using hk)
      simp only [List.set_cons_succ, val, List.getD_cons_succ, pow_succ]
      have e1 : B ^ k * B * t.getD k 0 = B * (B ^ k * t.getD k 0) := by ring
      have e2 : B ^ k * B * x = B * (B ^ k * x) := by ring
      rw [e1, e2]
      have := congrArg (B * ·) this
      simp only [Nat.mul_add] at this
      omega

theorem setBit_spec {q : List Nat} {i m : Nat} (hq : Limbs q) (hi : i < q.length * 64)
    (hv : val q = 2 ^ (i + 1) * m) :
    val (q.set (i / 64) (q.getD (i / 64) 0 ||| (1 <<< (i % 64)))) = val q + 2 ^ i ∧
    Limbs (q.set (i / 64) (q.getD (i / 64) 0 ||| (1 <<< (i % 64)))) := by
  have hk : i / 64 < q.length := by omega
  have hs : i % 64 < 64 := Nat.mod_lt _ (by decide)
  have e : 2 ^ i = B ^ (i / 64) * 2 ^ (i % 64) := by
    rw [B_eq, ← pow_mul, ← pow_add, Nat.div_add_mod]
  -- the limb is a multiple of `2 ^ (i % 64 + 1)`
  have hlimb : ∃ c, q.getD (i / 64) 0 = 2 ^ (i % 64 + 1) * c := by
    have h1 : val (q.drop (i / 64)) = 2 ^ (i % 64 + 1) * m := by
      rw [← val_div_pow hq, hv, pow_succ, e]
      rw [show B ^ (i / 64) * 2 ^ (i % 64) * 2 * m = B ^ (i / 64) * (2 ^ (i % 64 + 1) * m) by ring]
      exact Nat.mul_div_cancel_left _ (by positivity)
    rw [val_drop] at h1
    have h2 : 2 ^ (i % 64 + 1) ∣ B * val (q.drop (i / 64 + 1)) :=
      Dvd.dvd.mul_right (by rw [B_eq]; exact pow_dvd_pow 2 (by omega)) _
    have h3 : 2 ^ (i % 64 + 1) ∣ q.getD (i / 64) 0 := by
      rw [← Nat.dvd_add_left h2, h1]; exact Dvd.intro _ rfl
    exact h3
  obtain ⟨c, hc⟩ := hlimb
  have hor : q.getD (i / 64) 0 ||| (1 <<< (i % 64)) = q.getD (i / 64) 0 + 2 ^ (i % 64) := by
    rw [Nat.one_shiftLeft, hc]
    exact (Nat.two_pow_add_eq_or_of_lt (Nat.pow_lt_pow_right (by decide) (by omega)) c).symm
  have hlt : q.getD (i / 64) 0 < B := by
    rw [List.getD_eq_getElem _ _ hk]; exact hq _ (List.getElem_mem hk)
  have hsum : q.getD (i / 64) 0 + 2 ^ (i % 64) < B := by
    have hsp : B = 2 ^ (i % 64 + 1) * 2 ^ (63 - i % 64) := by
      rw [← pow_add, B_eq]; congr 1; omega
    rw [hc] at hlt ⊢
    have hc2 : c < 2 ^ (63 - i % 64) := Nat.lt_of_mul_lt_mul_left (lt_of_lt_of_eq hlt hsp)
    rw [hsp]
    have : 2 ^ (i % 64 + 1) * (c + 1) ≤ 2 ^ (i % 64 + 1) * 2 ^ (63 - i % 64) := Nat.mul_le_mul_left _ hc2
    have h2 : 2 ^ (i % 64) < 2 ^ (i % 64 + 1) := Nat.pow_lt_pow_right (by decide) (by omega)
    rw [Nat.mul_add] at this
    omega
  constructor
  · have := val_set (x := q.getD (i / 64) 0 ||| (1 <<< (i % 64))) hk
    rw [hor] at this ⊢
    rw [Nat.mul_add] at this
    rw [e]; omega
  · intro d hd
    rcases List.mem_or_eq_of_mem_set hd with h | h
    · exact hq d h
    · rw [h, hor]; exact hsum

/-- What is known after the bits from `i` upwards have been processed. -/
structure DivInv (a b : List Nat) (i : Nat) (qr : List Nat × List Nat) : Prop where
  q_limbs : Limbs qr.1
  q_len : qr.1.length = a.length
  q_val : val qr.1 = 2 ^ i * (val a / 2 ^ i / val b)
  r_norm : Norm qr.2
  r_val : val qr.2 = val a / 2 ^ i % val b

theorem divStep_inv {a b : List Nat} {i : Nat} {qr} (ha : Limbs a) (hb : Norm b) (hb0 : b ≠ [])
    (hi : i < a.length * 64) (h : DivInv a b (i + 1) qr) : DivInv a b i (divStep a b i qr) := by
  have hbpos : 0 < val b := Nat.pos_of_ne_zero fun h0 => hb0 ((val_eq_zero hb.2).1 h0)
  unfold divStep
  rw [bit_eq ha]
  simp only
  have hbit : val a / 2 ^ i % 2 ≤ 1 := by omega
  have ⟨s1, s2⟩ := magShl1_spec (a := qr.2) h.r_norm.1 hbit
  have hhalf : val a / 2 ^ (i + 1) = val a / 2 ^ i / 2 := by
    rw [pow_succ, Nat.div_div_eq_div_mul]
  have hr := h.r_val
  have hq := h.q_val
  rw [hhalf] at hr hq
  generalize hA : val a / 2 ^ i = A at *
  have hAd : 2 * (A / 2) + A % 2 = A := Nat.div_add_mod A 2
  have hAb := Nat.div_add_mod (A / 2) (val b)
  have hrlt : A / 2 % val b < val b := Nat.mod_lt _ hbpos
  rw [magCmp_eq s2 hb, s1, hr]
  by_cases hge : val b ≤ 2 * (A / 2 % val b) + A % 2
  · rw [if_pos (by rw [Nat.compare_ne_lt]; exact hge)]
    have ⟨t1, t2⟩ := magSub_spec (a := magShl1 qr.2 (A % 2)) s2.1 hb.1 (by rw [s1, hr]; exact hge)
    rw [s1, hr] at t1
    have hdm : A / val b = 2 * (A / 2 / val b) + 1 ∧ A % val b = 2 * (A / 2 % val b) + A % 2 - val b := by
      have : A = val b * (2 * (A / 2 / val b) + 1) + (2 * (A / 2 % val b) + A % 2 - val b) := by
        rw [Nat.mul_add, Nat.mul_one, ← Nat.mul_assoc, Nat.mul_comm (val b) 2, Nat.mul_assoc]; omega
      rw [Nat.div_mod_unique hbpos]
      exact ⟨by omega, by omega⟩
    have ⟨u1, u2⟩ := setBit_spec (q := qr.1) (i := i) (m := A / 2 / val b) h.q_limbs (by rw [h.q_len]; exact hi) hq
    refine ⟨u2, by simp [h.q_len], ?_, t2, ?_⟩
    · rw [u1, hq, hA, hdm.1, pow_succ]; ring
    · rw [t1, hA, hdm.2]
  · rw [if_neg (by rw [Nat.compare_ne_lt]; exact hge)]
    have hdm : A / val b = 2 * (A / 2 / val b) ∧ A % val b = 2 * (A / 2 % val b) + A % 2 := by
      have : A = val b * (2 * (A / 2 / val b)) + (2 * (A / 2 % val b) + A % 2) := by
        rw [← Nat.mul_assoc, Nat.mul_comm (val b) 2, Nat.mul_assoc]; omega
      rw [Nat.div_mod_unique hbpos]
      exact ⟨by omega, by omega⟩
    refine ⟨h.q_limbs, h.q_len, ?_, s2, ?_⟩
    · rw [hq, hA, hdm.1, pow_succ]; ring
    · rw [s1, hr, hA, hdm.2]

theorem divLoop_inv {a b : List Nat} {i : Nat} {qr} (ha : Limbs a) (hb : Norm b) (hb0 : b ≠ [])
    (hi : i ≤ a.length * 64) (h : DivInv a b i qr) : DivInv a b 0 (divLoop a b i qr) := by
  induction i generalizing qr with
  | zero => exact h
  | succ i ih => exact ih (by omega) (divStep_inv ha hb hb0 (by omega) h)

theorem magDivrem_spec {a b : List Nat} (ha : Norm a) (hb : Norm b) (hb0 : b ≠ []) :
    val (magDivrem a b).1 = val a / val b ∧ val (magDivrem a b).2 = val a % val b ∧
    Norm (magDivrem a b).1 ∧ Norm (magDivrem a b).2 := by
  have hbpos : 0 < val b := Nat.pos_of_ne_zero fun h0 => hb0 ((val_eq_zero hb.2).1 h0)
  unfold magDivrem
  rw [magCmp_eq ha hb]
  by_cases hlt : val a < val b
  · rw [if_pos (Nat.compare_eq_lt.2 hlt)]
    exact ⟨by simp [val, Nat.div_eq_of_lt hlt], by simp [Nat.mod_eq_of_lt hlt], norm_nil, ha⟩
  · rw [if_neg (by rw [Nat.compare_eq_lt]; exact hlt)]
    have hsmall : val a / 2 ^ (a.length * 64) = 0 := by
      apply Nat.div_eq_of_lt
      have := val_lt ha.1
      rwa [B_eq, ← pow_mul, Nat.mul_comm] at this
    have h := divLoop_inv ha.1 hb hb0 (le_refl _) (qr := (List.replicate a.length 0, []))
      ⟨limbs_replicate _, by simp, by simp [hsmall, val_replicate], norm_nil, by simp [hsmall, val]⟩
    refine ⟨?_, ?_, norm_normalize h.q_limbs, norm_normalize h.r_norm.1⟩
    · simp only [val_normalize, h.q_val]; simp
    · simp only [val_normalize, h.r_val]; simp

theorem val_inj {a b : List Nat} (ha : Norm a) (hb : Norm b) (h : val a = val b) : a = b := by
  induction a generalizing b with
  | nil =>
    have : val b = 0 := h.symm
    exact ((val_eq_zero hb.2).1 this).symm
  | cons x xs ih =>
    cases b with
    | nil => exact absurd ((val_eq_zero ha.2).1 h) (by simp)
    | cons y ys =>
      have ⟨hx, hxs⟩ := Limbs.cons.1 ha.1
      have ⟨hy, hys⟩ := Limbs.cons.1 hb.1
      simp only [val] at h
      have e1 : x = y := by
        have := congrArg (· % B) h
        simpa [Nat.add_mul_mod_self_left, Nat.mod_eq_of_lt hx, Nat.mod_eq_of_lt hy] using this
      subst e1
      have e2 : val xs = val ys := by
        have : B * val xs = B * val ys := by omega
        exact Nat.eq_of_mul_eq_mul_left (by decide) this
      have hl : ∀ {x : Nat} {l : List Nat}, Norm (x :: l) → Norm l := by
        rintro x l ⟨h1, h2⟩
        refine ⟨(Limbs.cons.1 h1).2, ?_⟩
        cases l with
        | nil => simp
        | cons _ _ => rwa [List.getLast?_cons_cons] at h2
      rw [ih (hl ha) (hl hb) e2]

end Verif.Num
