import Verif.Net.Wire
import Mathlib.Tactic.Ring
import Mathlib.Tactic.Linarith
/-! # Lemmas about the wire codec -/
namespace Verif.Net

theorem or128 (x : Nat) : (x % 256) ||| 128 = x % 128 + 128 := by
  have h : (x % 256) = (x % 256 / 128) * 128 + x % 128 := by omega
  have h2 : x % 256 / 128 = 0 ∨ x % 256 / 128 = 1 := by omega
  have key : ∀ y < 128, (y ||| 128 = y + 128) ∧ ((128 + y) ||| 128 = y + 128) := by decide +kernel
  rcases h2 with h2 | h2 <;> rw [h, h2]
  · simpa using (key (x % 128) (by omega)).1
  · simpa using (key (x % 128) (by omega)).2

theorem byte_facts : ∀ y < 128, ((y + 128) &&& 127 = y) ∧ ((y + 128) &&& 128 = 128) ∧ (y &&& 127 = y) ∧ (y &&& 128 = 0) := by
  decide +kernel

theorem or_shift (r y s : Nat) (h : r < 2 ^ s) : r ||| (y <<< s) = r + y * 2 ^ s := by
  rw [Nat.or_comm, ← Nat.shiftLeft_add_eq_or_of_lt h, Nat.shiftLeft_eq]; omega

theorem readLoop_write (x : Nat) : ∀ (r s : Nat) (rest : List Nat), r < 2 ^ s → s < 64 →
    x * 2 ^ s + r < 2 ^ 64 → readUvarintLoop r s (writeUvarint x ++ rest) = some (r + x * 2 ^ s, rest) := by
  induction x using Nat.strongRecOn with
  | _ x ih =>
    intro r s rest hr hs hx
    rw [writeUvarint]
    by_cases h : 128 ≤ x
    · rw [dif_pos h, or128, List.cons_append, readUvarintLoop]
      obtain ⟨h1, h2, -, -⟩ := byte_facts (x % 128) (by omega)
      rw [if_neg (by omega : ¬ s ≥ 64), h1, h2]
      have hsplit : x = x / 128 * 128 + x % 128 := by omega
      have hp : 0 < 2 ^ s := Nat.two_pow_pos s
      have hle : x % 128 * 2 ^ s ≤ x * 2 ^ s := Nat.mul_le_mul_right _ (Nat.mod_le _ _)
      have hmod : (x % 128) <<< s % 18446744073709551616 = (x % 128) <<< s := by
        apply Nat.mod_eq_of_lt; rw [Nat.shiftLeft_eq]; omega
      have he : 2 ^ (s + 7) = 2 ^ s * 128 := by rw [Nat.pow_add]
      have hx2 : x / 128 * 2 ^ (s + 7) + x % 128 * 2 ^ s = x * 2 ^ s := by
        rw [he]; nth_rewrite 3 [hsplit]; ring
      simp only [hmod, or_shift _ _ _ hr]
      rw [if_neg (by decide), Nat.shiftRight_eq_div_pow]
      have hq : 1 ≤ x / 128 := by omega
      have h7 : s + 7 < 64 := by
        by_contra hc
        have : 2 ^ 64 ≤ 2 ^ (s + 7) := Nat.pow_le_pow_right (by decide) (by omega)
        have : 2 ^ (s + 7) * 1 ≤ x / 128 * 2 ^ (s + 7) := by
          rw [Nat.mul_comm (x / 128)]; exact Nat.mul_le_mul_left _ hq
        omega
      rw [ih (x / 2 ^ 7) (Nat.div_lt_self (by omega) (by decide)) _ _ _ ?_ h7 ?_]
      · congr 2; change r + x % 128 * 2 ^ s + x / 128 * 2 ^ (s + 7) = _; omega
      · rw [he]
        have : x % 128 * 2 ^ s ≤ 127 * 2 ^ s := Nat.mul_le_mul_right _ (by omega)
        omega
      · change x / 128 * 2 ^ (s + 7) + _ < _; omega
    · rw [dif_neg h, List.singleton_append, readUvarintLoop]
      have hm : x % 256 = x := Nat.mod_eq_of_lt (by omega)
      obtain ⟨-, -, h3, h4⟩ := byte_facts x (by omega)
      rw [if_neg (by omega : ¬ s ≥ 64), hm, h3, h4]
      have hmod : x <<< s % 18446744073709551616 = x <<< s := by
        apply Nat.mod_eq_of_lt; rw [Nat.shiftLeft_eq]; omega
      simp only [hmod, or_shift _ _ _ hr, if_true]

theorem read_write_uvarint (x : Nat) (hx : x < 2 ^ 64) (rest : List Nat) :
    readUvarint (writeUvarint x ++ rest) = some (x, rest) := by
  unfold readUvarint
  rw [readLoop_write x 0 0 rest (by decide) (by decide) (by simpa using hx)]
  simp

/-! ### Zig-zag -/

theorem sshift63 (x : BitVec 64) : x.sshiftRight 63 = if x.msb then BitVec.allOnes 64 else 0#64 := by
  ext i hi
  rw [BitVec.getElem_sshiftRight]
  by_cases h0 : i = 0
  · subst h0
    rw [dif_pos (by omega)]
    cases h : x.msb <;> simp [BitVec.msb_eq_getLsbD_last] at * <;> simpa using h
  · rw [dif_neg (by omega)]
    cases x.msb
    · simp
    · rw [if_pos rfl, BitVec.getElem_allOnes]

theorem msb_iff (x : BitVec 64) : x.msb = true ↔ 2 ^ 63 ≤ x.toNat := by
  rw [BitVec.msb_eq_decide]; simp

theorem zigzag_toNat (x : BitVec 64) :
    ((zigzag x).toNat : Int) = if 0 ≤ x.toInt then 2 * x.toInt else -2 * x.toInt - 1 := by
  unfold zigzag
  rw [sshift63]
  have hx := x.isLt
  have hshl : (x <<< 1).toNat = (2 * x.toNat) % 2 ^ 64 := by
    rw [BitVec.toNat_shiftLeft, Nat.shiftLeft_eq]; congr 1; omega
  by_cases h : x.msb = true
  · rw [if_pos h]
    have hm := (msb_iff x).mp h
    have hi : x.toInt = (x.toNat : Int) - 2 ^ 64 := by rw [BitVec.toInt_eq_msb_cond, if_pos h]; rfl
    have : (x <<< 1 ^^^ BitVec.allOnes 64) = ~~~ (x <<< 1) := by
      rw [BitVec.xor_allOnes]
    rw [this, BitVec.toNat_not, hshl, if_neg (by omega), hi]
    omega
  · have hm : ¬ 2 ^ 63 ≤ x.toNat := fun hc => h ((msb_iff x).mpr hc)
    rw [if_neg h]
    have hi : x.toInt = (x.toNat : Int) := by rw [BitVec.toInt_eq_msb_cond, if_neg h]
    rw [BitVec.xor_zero, hshl, if_pos (by omega), hi]
    omega

theorem and_one (x : BitVec 64) : x &&& 1#64 = if x.toNat % 2 = 1 then 1#64 else 0#64 := by
  apply BitVec.eq_of_toNat_eq
  rw [BitVec.toNat_and]
  change x.toNat &&& 1 = _
  rw [Nat.and_one_is_mod]
  split <;> simp <;> omega

theorem unzigzag_zigzag (x : BitVec 64) : unzigzag (zigzag x) = x := by
  have hz := zigzag_toNat x
  generalize zigzag x = z at hz
  have hzl := z.isLt
  have hx := x.isLt
  unfold unzigzag
  rw [and_one]
  have hshr : (z >>> 1).toNat = z.toNat / 2 := by
    rw [BitVec.toNat_ushiftRight, Nat.shiftRight_eq_div_pow]
  have hti := BitVec.toInt_eq_msb_cond x
  by_cases h : x.msb = true
  · have hm := (msb_iff x).mp h
    rw [if_pos h] at hti
    rw [if_neg (by omega)] at hz
    rw [if_pos (by omega), show -(1#64) = BitVec.allOnes 64 by decide, BitVec.xor_allOnes]
    apply BitVec.eq_of_toNat_eq
    rw [BitVec.toNat_not, hshr]
    omega
  · have hm : ¬ 2 ^ 63 ≤ x.toNat := fun hc => h ((msb_iff x).mpr hc)
    rw [if_neg h] at hti
    rw [if_pos (by omega)] at hz
    rw [if_neg (by omega), show -(0#64) = 0#64 by decide, BitVec.xor_zero]
    apply BitVec.eq_of_toNat_eq
    rw [hshr]
    omega

/-! ### Texts, floats, headers -/

theorem takeBytes_append (s rest : List Nat) : takeBytes s.length (s ++ rest) = some (s, rest) := by
  unfold takeBytes
  rw [if_pos (by simp)]
  simp

theorem readStr_write (utf8 : List Nat → Bool) (s rest : List Nat) (h : utf8 s = true)
    (hl : s.length < 2 ^ 64) : readStr utf8 (writeStr s ++ rest) = some (s, rest) := by
  unfold readStr writeStr
  rw [List.append_assoc, read_write_uvarint _ hl]
  simp only [takeBytes_append]
  rw [if_pos h]

theorem leBytes_length (k x : Nat) : (leBytes k x).length = k := by
  induction k generalizing x with
  | zero => rfl
  | succ k ih => simp [leBytes, ih]

theorem leValue_leBytes (k x : Nat) : leValue (leBytes k x) = x % 256 ^ k := by
  induction k generalizing x with
  | zero => simp [leBytes, leValue, Nat.mod_one]
  | succ k ih =>
    rw [leBytes, leValue, ih, Nat.pow_succ, Nat.mul_comm (256 ^ k) 256, Nat.mod_mul]

theorem readHeader_write (utf8 : List Nat → Bool) (ty ctor rest : List Nat) (n : Nat)
    (ht : utf8 ty = true) (htl : ty.length < 2 ^ 64) (hc : utf8 ctor = true)
    (hcl : ctor.length < 2 ^ 64) (hn : n < 2 ^ 64) :
    readHeader utf8 (writeHeader ty ctor n ++ rest) = some ((ty, ctor, n), rest) := by
  unfold readHeader writeHeader
  simp only [List.cons_append, expectTag, if_true, List.append_assoc]
  rw [readStr_write utf8 _ _ ht htl]
  simp only []
  rw [readStr_write utf8 _ _ hc hcl]
  simp only []
  rw [read_write_uvarint _ hn]

/-! ### Round trip -/

theorem writeUvarint_ne_nil (x : Nat) : writeUvarint x ≠ [] := by
  rw [writeUvarint]; split <;> simp

mutual
theorem decodeF_encode (utf8 : List Nat → Bool) (env : Schema) :
    ∀ (v : WVal) (t : WTy) (f : Nat) (rest : List Nat), HasTy utf8 env v t → (encode v).length ≤ f →
      decodeF utf8 env f t (encode v ++ rest) = some (v, rest)
  | .int x, t, f, rest, h, hf => by
    simp only [HasTy] at h; subst h
    obtain ⟨f, rfl⟩ : ∃ g, f = g + 1 := ⟨f - 1, by simp [encode] at hf; omega⟩
    simp only [decodeF, decodeInt, encode, List.cons_append, expectTag, if_true]
    rw [read_write_uvarint _ (zigzag x).isLt]
    simp [unzigzag_zigzag]
  | .bool b, t, f, rest, h, hf => by
    simp only [HasTy] at h; subst h
    obtain ⟨f, rfl⟩ : ∃ g, f = g + 1 := ⟨f - 1, by simp [encode] at hf; omega⟩
    cases b <;> simp [decodeF, decodeBool, encode]
  | .float x, t, f, rest, h, hf => by
    simp only [HasTy] at h; subst h
    obtain ⟨f, rfl⟩ : ∃ g, f = g + 1 := ⟨f - 1, by simp [encode] at hf; omega⟩
    simp only [decodeF, decodeFloat, encode, List.cons_append, expectTag, if_true]
    have hb := takeBytes_append (leBytes 8 x.toNat) rest
    rw [leBytes_length] at hb
    rw [hb]
    simp only [leValue_leBytes]
    congr 3
    apply BitVec.eq_of_toNat_eq
    have := x.isLt
    rw [BitVec.toNat_ofNat]
    omega
  | .text s, t, f, rest, h, hf => by
    simp only [HasTy] at h
    obtain ⟨rfl, h1, h2⟩ := h
    obtain ⟨f, rfl⟩ : ∃ g, f = g + 1 := ⟨f - 1, by simp [encode] at hf; omega⟩
    simp only [decodeF, decodeText, encode, List.cons_append, expectTag, if_true]
    rw [readStr_write utf8 _ _ h1 h2]
  | .list vs, t, f, rest, h, hf => by
    simp only [HasTy] at h
    obtain ⟨e, rfl, h1, h2⟩ := h
    obtain ⟨f, rfl⟩ : ∃ g, f = g + 1 := ⟨f - 1, by simp [encode] at hf; omega⟩
    simp only [encode, List.length_cons, List.length_append] at hf
    simp only [decodeF, decodeList, encode, List.cons_append, expectTag, if_true, List.append_assoc]
    rw [read_write_uvarint _ h1]
    simp only []
    rw [decodeMany_encode utf8 env vs e f rest h2 (by omega)]
  | .data n c args, t, f, rest, h, hf => by
    simp only [HasTy] at h
    obtain ⟨rfl, h1, h2, h3, h4, h5, variants, tys, h6, h7, h8⟩ := h
    obtain ⟨f, rfl⟩ : ∃ g, f = g + 1 := ⟨f - 1, by simp [encode, writeHeader] at hf; omega⟩
    simp only [encode, List.length_append, writeHeader, List.length_cons] at hf
    simp only [decodeF, h6, decodeData, encode, List.append_assoc]
    rw [readHeader_write utf8 n c _ _ h1 h2 h3 h4 h5]
    simp only [h7]
    rw [decodeFields_encode utf8 env args tys f rest h8 (by omega)]
theorem decodeMany_encode (utf8 : List Nat → Bool) (env : Schema) :
    ∀ (vs : List WVal) (t : WTy) (f : Nat) (rest : List Nat), AllTy utf8 env vs t →
      (encodeAll vs).length ≤ f →
      decodeMany (decodeF utf8 env f t) vs.length (encodeAll vs ++ rest) = some (vs, rest)
  | [], _, _, _, _, _ => by simp [encodeAll, decodeMany]
  | v :: vs, t, f, rest, h, hf => by
    simp only [AllTy] at h
    simp only [encodeAll, List.length_append] at hf
    simp only [encodeAll, List.length_cons, decodeMany, List.append_assoc]
    rw [decodeF_encode utf8 env v t f _ h.1 (by omega)]
    simp only []
    rw [decodeMany_encode utf8 env vs t f rest h.2 (by omega)]
theorem decodeFields_encode (utf8 : List Nat → Bool) (env : Schema) :
    ∀ (vs : List WVal) (ts : List WTy) (f : Nat) (rest : List Nat), FieldsTy utf8 env vs ts →
      (encodeAll vs).length ≤ f →
      decodeFields (decodeF utf8 env f) ts (encodeAll vs ++ rest) = some (vs, rest)
  | [], ts, _, _, h, _ => by
    simp only [FieldsTy] at h; subst h
    simp [encodeAll, decodeFields]
  | v :: vs, ts, f, rest, h, hf => by
    simp only [FieldsTy] at h
    obtain ⟨t, ts', rfl, h1, h2⟩ := h
    simp only [encodeAll, List.length_append] at hf
    simp only [encodeAll, decodeFields, List.append_assoc]
    rw [decodeF_encode utf8 env v t f _ h1 (by omega)]
    simp only []
    rw [decodeFields_encode utf8 env vs ts' f rest h2 (by omega)]
end

/-! ### The decoder reads a prefix of the buffer, and more bytes after it change nothing -/

/-- `d` reads a non-empty prefix, the same whatever follows. -/
def Prefixed {A : Type} (d : List Nat → Option (A × List Nat)) : Prop :=
  ∀ bs v rest, d bs = some (v, rest) → ∃ used, used ≠ [] ∧ bs = used ++ rest ∧
    ∀ rest', d (used ++ rest') = some (v, rest')

/-- The same for a reader that may read nothing. -/
def Prefixed0 {A : Type} (d : List Nat → Option (A × List Nat)) : Prop :=
  ∀ bs v rest, d bs = some (v, rest) → ∃ used, bs = used ++ rest ∧
    ∀ rest', d (used ++ rest') = some (v, rest')

theorem Prefixed.to0 {A : Type} {d : List Nat → Option (A × List Nat)} (h : Prefixed d) : Prefixed0 d := by
  intro bs v rest hd
  obtain ⟨u, -, h1, h2⟩ := h bs v rest hd
  exact ⟨u, h1, h2⟩

theorem readLoop_prefixed (r s : Nat) : Prefixed (readUvarintLoop r s) := by
  intro bs
  induction bs generalizing r s with
  | nil => intro v rest h; simp [readUvarintLoop] at h
  | cons b bs ih =>
    intro v rest h
    rw [readUvarintLoop] at h
    by_cases h64 : s ≥ 64
    · simp [h64] at h
    rw [if_neg h64] at h
    simp only [] at h
    by_cases hb : b &&& 128 = 0
    · rw [if_pos hb] at h
      simp only [Option.some.injEq, Prod.mk.injEq] at h
      refine ⟨[b], by simp, by simp [h.2], fun rest' => ?_⟩
      simp only [List.singleton_append, readUvarintLoop]
      rw [if_neg h64, if_pos hb, h.1]
    · rw [if_neg hb] at h
      obtain ⟨u, -, h1, h2⟩ := ih _ _ v rest h
      refine ⟨b :: u, by simp, by simp [h1], fun rest' => ?_⟩
      simp only [List.cons_append, readUvarintLoop]
      rw [if_neg h64, if_neg hb, h2]

theorem readUvarint_prefixed : Prefixed readUvarint := readLoop_prefixed 0 0

theorem takeBytes_prefixed (n : Nat) : Prefixed0 (takeBytes n) := by
  intro bs v rest h
  unfold takeBytes at h
  split at h
  · rename_i hn
    simp only [Option.some.injEq, Prod.mk.injEq] at h
    refine ⟨bs.take n, by rw [← h.2, List.take_append_drop], fun rest' => ?_⟩
    have := takeBytes_append (bs.take n) rest'
    rw [List.length_take, Nat.min_eq_left hn] at this
    rw [this, h.1]
  · cases h

theorem readStr_prefixed (utf8 : List Nat → Bool) : Prefixed (readStr utf8) := by
  intro bs v rest h
  unfold readStr at h
  split at h
  · cases h
  · rename_i n r1 hu
    obtain ⟨u, hu0, hu1, hu2⟩ := readUvarint_prefixed _ _ _ hu
    split at h
    · cases h
    · rename_i s r2 ht
      obtain ⟨w, hw1, hw2⟩ := takeBytes_prefixed n _ _ _ ht
      split at h
      · rename_i hs
        simp only [Option.some.injEq, Prod.mk.injEq] at h
        obtain ⟨rfl, rfl⟩ := h
        refine ⟨u ++ w, by simp [hu0], by rw [hu1, hw1, List.append_assoc], fun rest' => ?_⟩
        unfold readStr
        rw [List.append_assoc, hu2]
        simp only [hw2]
        rw [if_pos hs]
      · cases h

theorem expectTag_some (t : Nat) (bs r : List Nat) (h : expectTag t bs = some r) : bs = t :: r := by
  cases bs with
  | nil => simp [expectTag] at h
  | cons b bs =>
    simp only [expectTag] at h
    split at h
    · simp_all
    · cases h

theorem expectTag_cons (t : Nat) (r : List Nat) : expectTag t (t :: r) = some r := by
  simp [expectTag]

theorem readHeader_prefixed (utf8 : List Nat → Bool) : Prefixed (readHeader utf8) := by
  intro bs v rest h
  unfold readHeader at h
  split at h
  · cases h
  rename_i r0 h0
  have e0 := expectTag_some _ _ _ h0
  split at h
  · cases h
  rename_i ty r1 h1
  obtain ⟨u1, -, a1, b1⟩ := readStr_prefixed utf8 _ _ _ h1
  split at h
  · cases h
  rename_i c r2 h2
  obtain ⟨u2, -, a2, b2⟩ := readStr_prefixed utf8 _ _ _ h2
  split at h
  · cases h
  rename_i n r3 h3
  obtain ⟨u3, -, a3, b3⟩ := readUvarint_prefixed _ _ _ h3
  simp only [Option.some.injEq, Prod.mk.injEq] at h
  obtain ⟨rfl, rfl⟩ := h
  refine ⟨18 :: (u1 ++ u2 ++ u3), by simp, by rw [e0, a1, a2, a3]; simp, fun rest' => ?_⟩
  unfold readHeader
  simp only [List.cons_append, expectTag_cons, List.append_assoc, b1, b2, b3]

theorem decodeInt_prefixed : Prefixed decodeInt := by
  intro bs v rest h
  unfold decodeInt at h
  split at h
  · cases h
  rename_i r0 h0
  have e0 := expectTag_some _ _ _ h0
  split at h
  · cases h
  rename_i n r1 h1
  obtain ⟨u1, -, a1, b1⟩ := readUvarint_prefixed _ _ _ h1
  simp only [Option.some.injEq, Prod.mk.injEq] at h
  obtain ⟨rfl, rfl⟩ := h
  refine ⟨3 :: u1, by simp, by rw [e0, a1]; simp, fun rest' => ?_⟩
  unfold decodeInt
  simp only [List.cons_append, expectTag_cons, b1]

theorem decodeBool_prefixed : Prefixed decodeBool := by
  intro bs v rest h
  cases bs with
  | nil => simp [decodeBool] at h
  | cons b bs =>
    simp only [decodeBool] at h
    refine ⟨[b], by simp, ?_, fun rest' => ?_⟩
    · split at h
      · simp_all
      · split at h <;> simp_all
    · simp only [List.singleton_append, decodeBool]
      split at h
      · simp_all
      · split at h <;> simp_all

theorem decodeFloat_prefixed : Prefixed decodeFloat := by
  intro bs v rest h
  unfold decodeFloat at h
  split at h
  · cases h
  rename_i r0 h0
  have e0 := expectTag_some _ _ _ h0
  split at h
  · cases h
  rename_i n r1 h1
  obtain ⟨u1, a1, b1⟩ := takeBytes_prefixed _ _ _ _ h1
  simp only [Option.some.injEq, Prod.mk.injEq] at h
  obtain ⟨rfl, rfl⟩ := h
  refine ⟨4 :: u1, by simp, by rw [e0, a1]; simp, fun rest' => ?_⟩
  unfold decodeFloat
  simp only [List.cons_append, expectTag_cons, b1]

theorem decodeText_prefixed (utf8 : List Nat → Bool) : Prefixed (decodeText utf8) := by
  intro bs v rest h
  unfold decodeText at h
  split at h
  · cases h
  rename_i r0 h0
  have e0 := expectTag_some _ _ _ h0
  split at h
  · cases h
  rename_i n r1 h1
  obtain ⟨u1, -, a1, b1⟩ := readStr_prefixed utf8 _ _ _ h1
  simp only [Option.some.injEq, Prod.mk.injEq] at h
  obtain ⟨rfl, rfl⟩ := h
  refine ⟨6 :: u1, by simp, by rw [e0, a1]; simp, fun rest' => ?_⟩
  unfold decodeText
  simp only [List.cons_append, expectTag_cons, b1]

theorem decodeMany_prefixed {dec : List Nat → Option (WVal × List Nat)} (hd : Prefixed dec) (n : Nat) :
    Prefixed0 (decodeMany dec n) := by
  induction n with
  | zero =>
    intro bs v rest h
    simp only [decodeMany, Option.some.injEq, Prod.mk.injEq] at h
    exact ⟨[], by simp [h.2], fun rest' => by simp [decodeMany, h.1]⟩
  | succ n ih =>
    intro bs v rest h
    simp only [decodeMany] at h
    split at h
    · cases h
    rename_i x r1 h1
    obtain ⟨u1, -, a1, b1⟩ := hd _ _ _ h1
    split at h
    · cases h
    rename_i xs r2 h2
    obtain ⟨u2, a2, b2⟩ := ih _ _ _ h2
    simp only [Option.some.injEq, Prod.mk.injEq] at h
    obtain ⟨rfl, rfl⟩ := h
    refine ⟨u1 ++ u2, by rw [a1, a2, List.append_assoc], fun rest' => ?_⟩
    simp only [decodeMany, List.append_assoc, b1, b2]

theorem decodeFields_prefixed {dec : WTy → List Nat → Option (WVal × List Nat)}
    (hd : ∀ t, Prefixed (dec t)) (ts : List WTy) : Prefixed0 (decodeFields dec ts) := by
  induction ts with
  | nil =>
    intro bs v rest h
    simp only [decodeFields, Option.some.injEq, Prod.mk.injEq] at h
    exact ⟨[], by simp [h.2], fun rest' => by simp [decodeFields, h.1]⟩
  | cons t ts ih =>
    intro bs v rest h
    simp only [decodeFields] at h
    split at h
    · cases h
    rename_i x r1 h1
    obtain ⟨u1, -, a1, b1⟩ := hd t _ _ _ h1
    split at h
    · cases h
    rename_i xs r2 h2
    obtain ⟨u2, a2, b2⟩ := ih _ _ _ h2
    simp only [Option.some.injEq, Prod.mk.injEq] at h
    obtain ⟨rfl, rfl⟩ := h
    refine ⟨u1 ++ u2, by rw [a1, a2, List.append_assoc], fun rest' => ?_⟩
    simp only [decodeFields, List.append_assoc, b1, b2]

theorem decodeF_prefixed (utf8 : List Nat → Bool) (env : Schema) (f : Nat) :
    ∀ t, Prefixed (decodeF utf8 env f t) := by
  induction f with
  | zero => intro t bs v rest h; simp [decodeF] at h
  | succ f ih =>
    intro t
    cases t with
    | int => exact decodeInt_prefixed
    | bool => exact decodeBool_prefixed
    | float => exact decodeFloat_prefixed
    | text => exact decodeText_prefixed utf8
    | list t =>
      intro bs v rest h
      simp only [decodeF] at h
      unfold decodeList at h
      split at h
      · cases h
      rename_i r0 h0
      have e0 := expectTag_some _ _ _ h0
      split at h
      · cases h
      rename_i n r1 h1
      obtain ⟨u1, -, a1, b1⟩ := readUvarint_prefixed _ _ _ h1
      split at h
      · cases h
      rename_i vs r2 h2
      obtain ⟨u2, a2, b2⟩ := decodeMany_prefixed (ih t) n _ _ _ h2
      simp only [Option.some.injEq, Prod.mk.injEq] at h
      obtain ⟨rfl, rfl⟩ := h
      refine ⟨13 :: (u1 ++ u2), by simp, by rw [e0, a1, a2]; simp, fun rest' => ?_⟩
      simp only [decodeF, decodeList, List.cons_append, expectTag_cons, List.append_assoc, b1, b2]
    | named n =>
      intro bs v rest h
      simp only [decodeF] at h
      split at h
      · cases h
      rename_i variants hv
      unfold decodeData at h
      split at h
      · cases h
      rename_i ty c k r0 h0
      obtain ⟨u0, hne, a0, b0⟩ := readHeader_prefixed utf8 _ _ _ h0
      split at h
      · cases h
      rename_i tys hl
      split at h
      · cases h
      rename_i args r1 h1
      obtain ⟨u1, a1, b1⟩ := decodeFields_prefixed ih tys _ _ _ h1
      simp only [Option.some.injEq, Prod.mk.injEq] at h
      obtain ⟨rfl, rfl⟩ := h
      refine ⟨u0 ++ u1, by simp [hne], by rw [a0, a1]; simp, fun rest' => ?_⟩
      simp only [decodeF, hv, decodeData, List.append_assoc, b0, hl, b1]

/-! ### Fuel -/

/-- Any fuel that succeeds is matched by the fuel `decode` supplies: the fuel never decides. -/
theorem decodeF_enough (utf8 : List Nat → Bool) (env : Schema) : ∀ (f : Nat) (t : WTy) (bs : List Nat) (r),
    decodeF utf8 env f t bs = some r → ∀ g, bs.length < g → decodeF utf8 env g t bs = some r := by
  intro f
  induction f with
  | zero => intro t bs r h; simp [decodeF] at h
  | succ f ih =>
    intro t bs r h g hg
    obtain ⟨g, rfl⟩ : ∃ k, g = k + 1 := ⟨g - 1, by omega⟩
    cases t with
    | int => exact h
    | bool => exact h
    | float => exact h
    | text => exact h
    | list t =>
      simp only [decodeF, decodeList] at h ⊢
      split at h
      · cases h
      rename_i r0 h0
      have e0 := congrArg List.length (expectTag_some _ _ _ h0)
      split at h
      · cases h
      rename_i n r1 h1
      obtain ⟨u1, -, a1, -⟩ := readUvarint_prefixed _ _ _ h1
      have l1 := congrArg List.length a1
      simp only [List.length_cons, List.length_append] at e0 l1
      split at h
      · cases h
      rename_i vs r2 h2
      have : ∀ n bs r, bs.length < g → decodeMany (decodeF utf8 env f t) n bs = some r →
          decodeMany (decodeF utf8 env g t) n bs = some r := by
        intro n
        induction n with
        | zero => intro bs r _ hr; exact hr
        | succ n ihn =>
          intro bs r hb hr
          simp only [decodeMany] at hr ⊢
          split at hr
          · cases hr
          rename_i x q1 g1
          rw [ih _ _ _ g1 g hb]
          obtain ⟨w, -, w1, -⟩ := decodeF_prefixed utf8 env f t _ _ _ g1
          have lw := congrArg List.length w1
          simp only [List.length_append] at lw
          split at hr
          · cases hr
          rename_i xs q2 g2
          simp only [ihn _ _ (by omega) g2]
          exact hr
      simp only [this _ _ _ (by omega) h2]
      exact h
    | named n =>
      rw [decodeF] at h ⊢
      split at h
      · cases h
      simp only [decodeData] at h ⊢
      split at h
      · cases h
      rename_i ty c k r0 h0
      obtain ⟨u0, hne, a0, -⟩ := readHeader_prefixed utf8 _ _ _ h0
      have l0 := congrArg List.length a0
      have l0' : 0 < u0.length := List.length_pos_iff.mpr hne
      simp only [List.length_append] at l0
      split at h
      · cases h
      split at h
      · cases h
      rename_i args r1 h1
      have : ∀ ts bs r, bs.length < g → decodeFields (decodeF utf8 env f) ts bs = some r →
          decodeFields (decodeF utf8 env g) ts bs = some r := by
        intro ts
        induction ts with
        | nil => intro bs r _ hr; exact hr
        | cons t ts ihn =>
          intro bs r hb hr
          simp only [decodeFields] at hr ⊢
          split at hr
          · cases hr
          rename_i x q1 g1
          rw [ih _ _ _ g1 g hb]
          obtain ⟨w, -, w1, -⟩ := decodeF_prefixed utf8 env f t _ _ _ g1
          have lw := congrArg List.length w1
          simp only [List.length_append] at lw
          split at hr
          · cases hr
          rename_i xs q2 g2
          simp only [ihn _ _ (by omega) g2]
          exact hr
      have h1' := this _ _ _ (by omega) h1
      simp only [h1']
      exact h

theorem decode_encode (utf8 : List Nat → Bool) (env : Schema) (v : WVal) (t : WTy) (rest : List Nat)
    (h : HasTy utf8 env v t) : decode utf8 env t (encode v ++ rest) = some (v, rest) := by
  unfold decode
  exact decodeF_encode utf8 env v t _ rest h (by simp; omega)

theorem decode_prefixed (utf8 : List Nat → Bool) (env : Schema) (t : WTy) :
    Prefixed (decode utf8 env t) := by
  intro bs v rest h
  obtain ⟨u, h1, h2, h3⟩ := decodeF_prefixed utf8 env _ t _ _ _ h
  exact ⟨u, h1, h2, fun rest' => decodeF_enough utf8 env _ t _ _ (h3 rest') _ (by simp)⟩

end Verif.Net
