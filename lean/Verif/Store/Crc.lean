import Verif.Store.Lemmas
/-! # CRC-32 tells apart payloads that differ in one byte -/
namespace Verif.Store

theorem crcBit_inj {a b : BitVec 32} (h : crcBit a = crcBit b) : a = b := by
  unfold crcBit at h
  have top : ∀ x : BitVec 32, (x >>> 1).getLsbD 31 = false := by
    intro x; simp
  have hp : (0xEDB88320#32).getLsbD 31 = true := by decide
  have h31 := congrArg (fun v => BitVec.getLsbD v 31) h
  have hl : a.getLsbD 0 = b.getLsbD 0 := by
    rcases Bool.eq_false_or_eq_true (a.getLsbD 0) with ha | ha <;>
      rcases Bool.eq_false_or_eq_true (b.getLsbD 0) with hb | hb <;>
      rw [ha, hb] <;>
      simp only [ha, hb, Bool.false_eq_true, if_true, if_false, BitVec.getLsbD_xor, top, hp, Bool.false_xor] at h31 <;>
      cases h31
  have hs : a >>> 1 = b >>> 1 := by
    rw [hl] at h
    split at h
    · have := congrArg (fun v => v ^^^ 0xEDB88320#32) h
      simpa [BitVec.xor_assoc] using this
    · exact h
  apply BitVec.eq_of_getLsbD_eq
  intro i hi
  cases i with
  | zero => exact hl
  | succ i =>
    have := congrArg (fun v => BitVec.getLsbD v i) hs
    simpa [BitVec.getLsbD_ushiftRight, Nat.add_comm] using this

theorem crcByte_inj_left {a b : BitVec 32} {x : Byte} (h : crcByte a x = crcByte b x) : a = b := by
  unfold crcByte at h
  have h := crcBit_inj (crcBit_inj (crcBit_inj (crcBit_inj (crcBit_inj (crcBit_inj (crcBit_inj (crcBit_inj h)))))))
  have := congrArg (fun v => v ^^^ x.setWidth 32) h
  simpa [BitVec.xor_assoc] using this

theorem crcByte_inj_right {a : BitVec 32} {x y : Byte} (h : crcByte a x = crcByte a y) : x = y := by
  unfold crcByte at h
  have h := crcBit_inj (crcBit_inj (crcBit_inj (crcBit_inj (crcBit_inj (crcBit_inj (crcBit_inj (crcBit_inj h)))))))
  have h2 := congrArg (fun v => a ^^^ v) h
  simp only [← BitVec.xor_assoc, BitVec.xor_self, BitVec.zero_xor] at h2
  have h3 := congrArg (fun v => BitVec.setWidth 8 v) h2
  simpa using h3

theorem crc_foldl_inj (l : Bytes) {a b : BitVec 32} (h : l.foldl crcByte a = l.foldl crcByte b) : a = b := by
  induction l generalizing a b with
  | nil => exact h
  | cons x l ih => exact crcByte_inj_left (ih h)

theorem crc32_byte (l r : Bytes) {x y : Byte} (hne : x ≠ y) : crc32 (l ++ x :: r) ≠ crc32 (l ++ y :: r) := by
  intro h
  unfold crc32 at h
  have h' := congrArg (fun v => ~~~ v) h
  simp only [BitVec.not_not, List.foldl_append, List.foldl_cons] at h'
  exact hne (crcByte_inj_right (crc_foldl_inj r h'))

end Verif.Store
