import Verif.Num.Uuid
import Mathlib.Data.Nat.Bitwise
import Mathlib.Tactic.Ring
import Mathlib.Tactic.Linarith

/-! # Lemmas on the model of UUIDs -/
namespace Verif.Num.Uuid

theorem shr4 (a : Nat) : a >>> 4 = a / 16 := by rw [Nat.shiftRight_eq_div_pow]
theorem and15 (a : Nat) : a &&& 15 = a % 16 := Nat.and_two_pow_sub_one_eq_mod a 4

/-- Sixteen-bit shifts right by four, masked, do not mix bytes. -/
theorem hi_lane : ∀ (v : V), (∀ x ∈ v, x < 256) → v.length % 2 = 0 →
    List.zipWith (· &&& ·) (srli v 4) (List.replicate v.length 15) = v.map (· / 16)
  | [], _, _ => rfl
  | [a], _, h => by simp at h
  | a :: b :: v, h, hl => by
    have ih := hi_lane v (fun x hx => h x (by simp [hx])) (by simp at hl; omega)
    simp only [srli] at ih
    simp only [srli, wide, List.length_cons, List.replicate_succ, List.zipWith_cons_cons, List.map_cons, ih]
    rw [and15, and15, shr4]
    have := h a (by simp)
    have := h b (by simp)
    congr 1
    · omega
    · congr 1
      omega

/-- The value of a character, as the vector code computes it. -/
def nibLane (c : Nat) : Nat := c % 16 + 9 * (c / 64 % 2)

theorem nibbles_lane : ∀ (v : V), (∀ x ∈ v, x < 256) → v.length % 2 = 0 → v.length ≤ 16 →
    nibbles v = v.map nibLane := by
  have key : ∀ (n : Nat) (v : V), (∀ x ∈ v, x < 256) → v.length % 2 = 0 → v.length ≤ n →
      let lo := List.zipWith (· &&& ·) v (List.replicate n 15)
      let hi := srli (List.zipWith (· &&& ·) v (List.replicate n 64)) 6
      let hi8 := slli hi 3
      List.zipWith (fun a b => (a + b) % 256) (List.zipWith (fun a b => (a + b) % 256) lo hi8) hi =
        v.map nibLane := by
    have h64 : ∀ a : Nat, a &&& 64 = 64 * (a / 64 % 2) := by
      intro a
      have := Nat.and_two_pow a 6
      rw [show (64:Nat) = 2 ^ 6 from rfl, this, Nat.testBit_eq_decide_div_mod_eq]
      rcases Nat.mod_two_eq_zero_or_one (a / 64) with h | h <;> simp [h]
    intro n v
    induction n using Nat.strongRecOn generalizing v with
    | _ n ih =>
      match v with
      | [] => intro _ _ _; simp [srli, slli, wide]
      | [a] => intro _ h _; simp at h
      | a :: b :: v =>
        intro h hl hn
        obtain ⟨m, rfl⟩ : ∃ m, n = m + 2 := ⟨n - 2, by simp at hn; omega⟩
        have := ih m (by omega) v (fun x hx => h x (by simp [hx])) (by simp at hl; omega) (by simp at hn; omega)
        simp only [srli, slli] at this ⊢
        simp only [List.replicate_succ, List.zipWith_cons_cons, wide, this, List.map_cons]
        have ha := h a (by simp)
        have hb := h b (by simp)
        simp only [h64, and15, Nat.shiftRight_eq_div_pow, Nat.shiftLeft_eq, nibLane]
        congr 1
        · omega
        · congr 1
          omega
  intro v h1 h2 h3
  exact key 16 v h1 h2 h3

/-- A character the vector code takes for a digit. -/
def okLane (c : Nat) : Bool :=
  decide ((48 ≤ c ∧ c ≤ 57) ∨ (97 ≤ c ∧ c ≤ 102) ∨ (65 ≤ c ∧ c ≤ 70) ∨ (16 ≤ c ∧ c ≤ 25))

theorem ok_byte : ∀ c < 256,
    ((if min (max (c ||| 32) 48) 57 = (c ||| 32) then 255 else 0) |||
      (if min (max (c ||| 32) 97) 102 = (c ||| 32) then 255 else 0)) = if okLane c then 255 else 0 := by
  decide +kernel

theorem hexOk_lane (v : V) (h : ∀ x ∈ v, x < 256) (hl : v.length ≤ 16) :
    hexOk v = v.map fun c => if okLane c then 255 else 0 := by
  have key : ∀ (n : Nat) (v : V), (∀ x ∈ v, x < 256) → v.length ≤ n →
      (let cf := List.zipWith (· ||| ·) v (List.replicate n 32)
       let cl : Nat → Nat → List Nat := fun lo hi => List.zipWith (fun a b => if a = b then 255 else 0)
         (List.zipWith min (List.zipWith max cf (List.replicate n lo)) (List.replicate n hi)) cf
       List.zipWith (· ||| ·) (cl 48 57) (cl 97 102)) = v.map fun c => if okLane c then 255 else 0 := by
    intro n v
    induction v generalizing n with
    | nil => intro _ _; simp
    | cons a v ih =>
      intro h hn
      obtain ⟨m, rfl⟩ : ∃ m, n = m + 1 := ⟨n - 1, by simp at hn; omega⟩
      have := ih m (fun x hx => h x (by simp [hx])) (by simp at hn; omega)
      simp only [List.replicate_succ, List.zipWith_cons_cons, List.map_cons] at this ⊢
      rw [this, ok_byte a (h a (by simp))]
  exact key 16 v h hl

theorem allSet_and : ∀ (a b : List Bool), a.length = b.length →
    allSet (vand (a.map fun x => if x then 255 else 0) (b.map fun x => if x then 255 else 0)) =
      (a.all id && b.all id)
  | [], [], _ => rfl
  | x :: a, y :: b, h => by
    have ih := allSet_and a b (by simpa using h)
    simp only [allSet, vand, lanes] at ih ⊢
    simp only [List.map_cons, List.zipWith_cons_cons, List.all_cons, ih]
    cases x <;> cases y <;> simp
  | [], _ :: _, h => by simp at h
  | _ :: _, [], h => by simp at h

/-- The byte of two characters. -/
def byteOf (g : Nat → Nat) (p : Nat) : Nat := nibLane (g p) * 16 + nibLane (g (p + 1))

/-- A hexadecimal digit, of either case. -/
def isHex (c : Nat) : Bool := decide ((48 ≤ c ∧ c ≤ 57) ∨ (97 ≤ c ∧ c ≤ 102) ∨ (65 ≤ c ∧ c ≤ 70))

theorem hexDecode_hex : ∀ c < 256, (isHex c = true → hexDecode c = nibLane c ∧ nibLane c < 16 ∧
    nib c = nibLane c ∧ hexVal c = some (nibLane c)) ∧ (isHex c = false → hexDecode c = 255 ∧ hexVal c = none) ∧
    (okLane c = true → nibLane c < 16) := by
  decide +kernel

theorem okLane_hex (c : Nat) : okLane c = (isHex c || decide (16 ≤ c ∧ c ≤ 25)) := by
  unfold okLane isHex
  rw [← Bool.decide_or]
  apply decide_eq_decide.2
  omega

theorem or_lt16 (a b : Nat) : a ||| b < 16 ↔ a < 16 ∧ b < 16 := by
  constructor
  · intro h
    exact ⟨lt_of_le_of_lt Nat.left_le_or h, lt_of_le_of_lt Nat.right_le_or h⟩
  · rintro ⟨h1, h2⟩
    exact Nat.or_lt_two_pow (n := 4) h1 h2

theorem pack (a b : Nat) (ha : a < 16) (hb : b < 16) : (a <<< 4) % 256 ||| b = a * 16 + b := by
  have h1 : a <<< 4 = 2 ^ 4 * a := by rw [Nat.shiftLeft_eq, Nat.mul_comm]
  rw [h1, Nat.mod_eq_of_lt (by omega), ← Nat.two_pow_add_eq_or_of_lt (i := 4) hb a]
  omega

theorem hexDecode_lt {c : Nat} (h : c < 256) : hexDecode c < 16 ↔ isHex c = true := by
  have := hexDecode_hex c h
  cases hi : isHex c
  · have := (this.2.1 hi).1
    simp [this]
  · have := this.1 hi
    simp; omega

theorem scalarLoop_spec (arr : List Nat) (hb : ∀ i, arr.getD i 0 < 256) :
    ∀ (ps : List Nat) (bad : Nat) (out : List Nat),
    ((scalarLoop arr ps bad out).1 < 16 ↔ bad < 16 ∧
      ∀ p ∈ ps, isHex (arr.getD p 0) = true ∧ isHex (arr.getD (p + 1) 0) = true) ∧
    ((scalarLoop arr ps bad out).1 < 16 →
      (scalarLoop arr ps bad out).2 = out ++ ps.map (byteOf fun i => arr.getD i 0))
  | [], bad, out => by simp [scalarLoop]
  | p :: ps, bad, out => by
    obtain ⟨h1, h2⟩ := scalarLoop_spec arr hb ps
      (bad ||| (hexDecode (arr.getD p 0) ||| hexDecode (arr.getD (p + 1) 0)))
      (out ++ [(hexDecode (arr.getD p 0) <<< 4) % 256 ||| (hexDecode (arr.getD (p + 1) 0) &&& 15)])
    have e : (scalarLoop arr (p :: ps) bad out) = scalarLoop arr ps
      (bad ||| (hexDecode (arr.getD p 0) ||| hexDecode (arr.getD (p + 1) 0)))
      (out ++ [(hexDecode (arr.getD p 0) <<< 4) % 256 ||| (hexDecode (arr.getD (p + 1) 0) &&& 15)]) := rfl
    rw [e]
    have hp := hb p
    have hq := hb (p + 1)
    constructor
    · rw [h1, or_lt16, or_lt16, hexDecode_lt hp, hexDecode_lt hq]
      simp only [List.forall_mem_cons]
      tauto
    · intro h
      rw [h2 h]
      have h3 := (h1.1 h).1
      rw [or_lt16, or_lt16, hexDecode_lt hp, hexDecode_lt hq] at h3
      have a := (hexDecode_hex _ hp).1 h3.2.1
      have b := (hexDecode_hex _ hq).1 h3.2.2
      rw [a.1, b.1, and15, Nat.mod_eq_of_lt b.2.1, pack _ _ a.2.1 b.2.1]
      simp [byteOf]

/-- What the portable decoding computes. -/
theorem decodeScalar_eq (arr : List Nat) (hb : ∀ i, arr.getD i 0 < 256) :
    decodeScalar arr =
      if ∀ p ∈ pairs, isHex (arr.getD p 0) = true ∧ isHex (arr.getD (p + 1) 0) = true
      then some (pairs.map (byteOf fun i => arr.getD i 0)) else none := by
  obtain ⟨h1, h2⟩ := scalarLoop_spec arr hb pairs 0 []
  unfold decodeScalar
  by_cases h : (scalarLoop arr pairs 0 []).1 < 16
  · simp only [h, if_true]
    rw [h2 h, if_pos (h1.1 h).2]
    rfl
  · simp only [h, if_false]
    rw [if_neg (fun hc => h (h1.2 ⟨by decide, hc⟩))]

/-- The characters the vector code accepts: anywhere but in the last four places also the control
characters 16 to 25. -/
def okAt (g : Nat → Nat) (i : Nat) : Bool := if 32 ≤ i then isHex (g i) else okLane (g i)

theorem decodeCore_mask (b : List Nat) (hb : ∀ i, b.getD i 0 < 256) :
    allSet (decodeCore b).2 = true ↔
      ∀ i ∈ [0, 1, 2, 3, 4, 5, 6, 7, 9, 10, 11, 12, 14, 15, 16, 17, 19, 20, 21, 22, 24, 25, 26, 27, 28, 29, 30, 31],
        okLane (b.getD i 0) = true := by
  have ha : shuffle (load b 0) [0, 1, 2, 3, 4, 5, 6, 7, 9, 10, 11, 12, 14, 15, 0, 0] =
      [0, 1, 2, 3, 4, 5, 6, 7, 9, 10, 11, 12, 14, 15, 0, 0].map fun i => b.getD i 0 := by
    simp [shuffle, load, List.range_succ]
  have hbb : shuffle (load b 16) [0, 1, 3, 4, 5, 6, 8, 9, 10, 11, 12, 13, 14, 15, 0, 0] =
      [16, 17, 19, 20, 21, 22, 24, 25, 26, 27, 28, 29, 30, 31, 16, 16].map fun i => b.getD i 0 := by
    simp [shuffle, load, List.range_succ]
  unfold decodeCore
  simp only [ha, hbb]
  rw [hexOk_lane _ (by intro x hx; obtain ⟨i, _, rfl⟩ := List.mem_map.1 hx; exact hb i) (by simp),
    hexOk_lane _ (by intro x hx; obtain ⟨i, _, rfl⟩ := List.mem_map.1 hx; exact hb i) (by simp)]
  rw [show ∀ l : List Nat, (l.map fun c => if okLane c then 255 else 0) =
    (l.map okLane).map (fun x => if x then 255 else 0) from fun l => by simp [List.map_map]]
  rw [show ∀ l : List Nat, (l.map fun c => if okLane c then 255 else 0) =
    (l.map okLane).map (fun x => if x then 255 else 0) from fun l => by simp [List.map_map]]
  rw [allSet_and _ _ (by simp)]
  simp only [List.map_cons, List.map_nil, List.all_cons, List.all_nil, id, Bool.and_eq_true,
    List.forall_mem_cons, Bool.and_true, and_true]
  constructor
  · rintro ⟨h1, h2⟩
    simp only [h1, h2, List.not_mem_nil, false_implies, implies_true, and_self, true_and, and_true]
  · intro h
    simp only [h, and_self]

theorem decodeCore_out (b : List Nat) (hb : ∀ i, b.getD i 0 < 256)
    (h1 : ∀ i ∈ [0, 1, 2, 3, 4, 5, 6, 7, 9, 10, 11, 12, 14, 15, 16, 17, 19, 20, 21, 22, 24, 25, 26, 27, 28, 29, 30, 31],
        okLane (b.getD i 0) = true)
    (h2 : ∀ i ∈ [32, 33, 34, 35], isHex (b.getD i 0) = true) :
    (decodeCore b).1 = pairs.map (byteOf fun i => b.getD i 0) := by
  have ha : shuffle (load b 0) [0, 1, 2, 3, 4, 5, 6, 7, 9, 10, 11, 12, 14, 15, 0, 0] =
      [0, 1, 2, 3, 4, 5, 6, 7, 9, 10, 11, 12, 14, 15, 0, 0].map fun i => b.getD i 0 := by
    simp [shuffle, load, List.range_succ]
  have hbb : shuffle (load b 16) [0, 1, 3, 4, 5, 6, 8, 9, 10, 11, 12, 13, 14, 15, 0, 0] =
      [16, 17, 19, 20, 21, 22, 24, 25, 26, 27, 28, 29, 30, 31, 16, 16].map fun i => b.getD i 0 := by
    simp [shuffle, load, List.range_succ]
  have t := fun i hi => (hexDecode_hex _ (hb i)).1 (h2 i hi)
  have l := fun i hi => (hexDecode_hex _ (hb i)).2.2 (h1 i hi)
  simp only [List.forall_mem_cons] at t l
  unfold decodeCore
  simp only [ha, hbb]
  rw [nibbles_lane _ (by intro x hx; obtain ⟨i, _, rfl⟩ := List.mem_map.1 hx; exact hb i) (by simp) (by simp),
    nibbles_lane _ (by intro x hx; obtain ⟨i, _, rfl⟩ := List.mem_map.1 hx; exact hb i) (by simp) (by simp)]
  rw [t.1.2.2.1, t.2.1.2.2.1, t.2.2.1.2.2.1, t.2.2.2.1.2.2.1, pack _ _ t.1.2.1 t.2.1.2.1,
    pack _ _ t.2.2.1.2.1 t.2.2.2.1.2.1]
  have m : ∀ x y, x < 16 → y < 16 → min (min (x * 16 + y * 1) 32767) 255 = x * 16 + y := by
    intro x y hx hy; omega
  obtain ⟨l0, l1, l2, l3, l4, l5, l6, l7, l9, l10, l11, l12, l14, l15, l16, l17, l19, l20, l21, l22, l24, l25, l26,
    l27, l28, l29, l30, l31, _⟩ := l
  simp only [List.map_cons, List.map_nil, maddubs, packus, List.cons_append, List.take_succ_cons, List.take_zero,
    m _ _ l0 l1, m _ _ l2 l3, m _ _ l4 l5, m _ _ l6 l7, m _ _ l9 l10, m _ _ l11 l12, m _ _ l14 l15,
    m _ _ l16 l17, m _ _ l19 l20, m _ _ l21 l22, m _ _ l24 l25, m _ _ l26 l27, m _ _ l28 l29, m _ _ l30 l31]
  rfl

theorem tail_lt (b : List Nat) (hb : ∀ i, b.getD i 0 < 256) :
    tail b < 16 ↔ ∀ i ∈ [32, 33, 34, 35], isHex (b.getD i 0) = true := by
  unfold tail
  rw [or_lt16, or_lt16, or_lt16, hexDecode_lt (hb _), hexDecode_lt (hb _), hexDecode_lt (hb _), hexDecode_lt (hb _)]
  simp only [List.forall_mem_cons, List.not_mem_nil, false_implies, implies_true, and_true]
  tauto

/-- What the vector decoding computes. -/
theorem decodeSimd_eq (b : List Nat) (hb : ∀ i, b.getD i 0 < 256) :
    decodeSimd b =
      if ∀ p ∈ pairs, okAt (fun i => b.getD i 0) p = true ∧ okAt (fun i => b.getD i 0) (p + 1) = true
      then some (pairs.map (byteOf fun i => b.getD i 0)) else none := by
  unfold decodeSimd
  have e : (allSet (decodeCore b).2 = true ∧ tail b < 16) ↔
      ∀ p ∈ pairs, okAt (fun i => b.getD i 0) p = true ∧ okAt (fun i => b.getD i 0) (p + 1) = true := by
    rw [decodeCore_mask b hb, tail_lt b hb]
    simp only [pairs, okAt, List.forall_mem_cons, List.not_mem_nil, false_implies, implies_true, and_true]
    simp only [Nat.reduceLeDiff, if_true, if_false, Nat.reduceAdd]
    tauto
  by_cases h : allSet (decodeCore b).2 = true ∧ tail b < 16
  · simp only [h, and_self, if_true]
    rw [if_pos (e.1 h)]
    rw [decodeCore_out b hb ((decodeCore_mask b hb).1 h.1) ((tail_lt b hb).1 h.2)]
  · simp only [h, if_false]
    rw [if_neg (fun hc => h (e.2 hc))]

end Verif.Num.Uuid
