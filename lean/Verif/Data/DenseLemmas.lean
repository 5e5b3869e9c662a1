import Verif.Data.Dense
import Verif.Data.OpenMapLemmas

/-! # Lemmas: the dense maps and sets -/
namespace Verif.Data

/-- The presence bit of a position. -/
def PBit (present : List Nat) (idx : Nat) : Bool := (present.getD (idx / 64) 0).testBit (idx % 64)

theorem bitOf_eq (idx : Nat) : bitOf idx = 2 ^ (idx % 64) := by
  unfold bitOf
  rw [Nat.one_shiftLeft, show (63 : Nat) = 2 ^ 6 - 1 from rfl, Nat.and_two_pow_sub_one_eq_mod]

theorem and_bit (word i : Nat) : word &&& 2 ^ i ≠ 0 ↔ word.testBit i = true := by
  rw [Nat.and_two_pow]
  cases word.testBit i <;> simp

theorem shr6 (i : Nat) : i >>> 6 = i / 64 := by rw [Nat.shiftRight_eq_div_pow]

theorem bitSet_spec (present : List Nat) (idx : Nat) (h : idx / 64 < present.length) :
    bitSet present idx = some (PBit present idx) := by
  unfold bitSet PBit
  rw [shr6, List.getElem?_eq_getElem h, List.getD_eq_getElem _ _ h, bitOf_eq]
  simp only [Option.some.injEq, and_bit]
  cases present[idx / 64].testBit (idx % 64) <;> rfl

theorem markBit_spec (present : List Nat) (len idx : Nat) (h : idx / 64 < present.length) :
    ∃ p, markBit present len idx = some (p, if PBit present idx then len else len + 1) ∧
      p.length = present.length ∧ ∀ j, PBit p j = (PBit present j || decide (j = idx)) := by
  have hkey : present[idx / 64].testBit (idx % 64) = PBit present idx := by
    unfold PBit; rw [List.getD_eq_getElem _ _ h]
  unfold markBit
  rw [shr6, List.getElem?_eq_getElem h, bitOf_eq]
  simp only
  by_cases hb : present[idx / 64] &&& 2 ^ (idx % 64) = 0
  · rw [if_pos hb]
    have hfalse : PBit present idx = false := by
      rw [← hkey]
      cases hc : present[idx / 64].testBit (idx % 64) with
      | false => rfl
      | true => exact absurd hb ((and_bit _ _).mpr hc)
    refine ⟨_, by rw [hfalse]; rfl, by simp, ?_⟩
    intro j
    unfold PBit
    rw [List.getD_eq_getElem?_getD, List.getElem?_set]
    by_cases hw : idx / 64 = j / 64
    · rw [if_pos hw, ← hw, if_pos h, List.getD_eq_getElem _ _ h]
      simp only [Option.getD_some, Nat.testBit_or, Nat.testBit_two_pow]
      congr 1
      by_cases e : j = idx
      · simp [e]
      · have : idx % 64 ≠ j % 64 := by omega
        simp [e, this]
    · rw [if_neg hw, ← List.getD_eq_getElem?_getD]
      have : j ≠ idx := by rintro rfl; exact hw rfl
      simp [this]
  · rw [if_neg hb]
    have htrue : PBit present idx = true := by rw [← hkey]; exact (and_bit _ _).mp hb
    refine ⟨present, by rw [htrue]; rfl, rfl, ?_⟩
    intro j
    by_cases e : j = idx
    · rw [e, htrue]; rfl
    · simp [e]

theorem PBit_zero (n j : Nat) : PBit (List.replicate n 0) j = false := by
  unfold PBit
  rw [List.getD_eq_getElem?_getD, List.getElem?_replicate]
  split <;> simp

theorem denseIdx_in (lo key : Int) (size : Nat) (h1 : lo ≤ key) (h2 : key < lo + size) :
    denseIdx lo key size = some (key - lo).toNat := by
  unfold denseIdx; rw [if_pos ⟨h1, by omega⟩]

theorem dedup_snoc (past : List (Int × Int)) (k v : Int) :
    ((past ++ [(k, v)]).map Prod.fst).dedup.length =
      if (lastFor k past).isSome then (past.map Prod.fst).dedup.length
      else (past.map Prod.fst).dedup.length + 1 := by
  rw [← List.card_toFinset, ← List.card_toFinset, List.map_append, List.toFinset_append]
  simp only [List.map_cons, List.map_nil, List.toFinset_cons, List.toFinset_nil, insert_empty_eq]
  rw [Finset.union_comm, ← Finset.insert_eq]
  have hn := lastFor_none k past
  cases hl : lastFor k past with
  | none =>
    rw [hl] at hn; simp only [true_iff] at hn
    rw [Finset.card_insert_of_notMem (by rw [List.mem_toFinset]; exact hn)]; rfl
  | some x =>
    rw [hl] at hn; simp only [reduceCtorEq, false_iff, not_not] at hn
    rw [Finset.insert_eq_of_mem (List.mem_toFinset.mpr hn)]; rfl

/-- The presence words represent the keys inserted. -/
structure PInv (present : List Nat) (lo : Int) (slots len : Nat) (past : List (Int × Int)) : Prop where
  size : present.length = wordsFor slots
  bits : ∀ j < slots, PBit present j = (lastFor (lo + j) past).isSome
  len : len = (past.map Prod.fst).dedup.length

theorem pinv_new (lo : Int) (slots : Nat) : PInv (List.replicate (wordsFor slots) 0) lo slots 0 [] :=
  ⟨by simp, fun j _ => by rw [PBit_zero]; rfl, by simp⟩

theorem pinv_insert {present : List Nat} {lo : Int} {slots len : Nat} {past : List (Int × Int)}
    (h : PInv present lo slots len past) (k v : Int) (h1 : lo ≤ k) (h2 : k < lo + slots) :
    ∃ p l, markBit present len (k - lo).toNat = some (p, l) ∧ PInv p lo slots l (past ++ [(k, v)]) := by
  have hidx : (k - lo).toNat / 64 < present.length := by rw [h.size]; unfold wordsFor; omega
  obtain ⟨p, m1, m2, m3⟩ := markBit_spec present len (k - lo).toNat hidx
  have hb := h.bits (k - lo).toNat (by omega)
  have hk : lo + ((k - lo).toNat : Int) = k := by omega
  rw [hk] at hb
  refine ⟨p, _, m1, ⟨by rw [m2, h.size], ?_, ?_⟩⟩
  · intro j hj
    rw [m3, h.bits j hj, lastFor_append]
    by_cases e : j = (k - lo).toNat
    · have : lo + (j : Int) = k := by omega
      rw [this]; simp [e]
    · have : lo + (j : Int) ≠ k := by omega
      simp [e, this]
  · rw [dedup_snoc, hb, h.len]

theorem dmap_run (lo : Int) (slots : Nat) : ∀ (ops past : List (Int × Int)) (m : DMap),
    (∀ e ∈ ops, lo ≤ e.1 ∧ e.1 < lo + slots) → m.lo = lo → m.data.length = slots →
    PInv m.present lo slots m.len past →
    (∀ j < slots, ∀ v, lastFor (lo + j) past = some v → m.data[j]? = some v) →
    ∃ m', m.run ops = some m' ∧ m'.lo = lo ∧ m'.data.length = slots ∧
      PInv m'.present lo slots m'.len (past ++ ops) ∧
      ∀ j < slots, ∀ v, lastFor (lo + j) (past ++ ops) = some v → m'.data[j]? = some v := by
  intro ops
  induction ops with
  | nil => intro past m _ h1 h2 h3 h4; exact ⟨m, rfl, h1, h2, by simpa using h3, by simpa using h4⟩
  | cons e rest ih =>
    intro past m hw h1 h2 h3 h4
    obtain ⟨k, v⟩ := e
    have hk := hw (k, v) (by simp)
    obtain ⟨p, l, m1, m2⟩ := pinv_insert h3 k v hk.1 hk.2
    have hins : m.insert k v = some { m with present := p, len := l, data := m.data.set (k - lo).toNat v } := by
      unfold DMap.insert
      rw [h1, h2, denseIdx_in lo k slots hk.1 hk.2]
      simp only [m1]
    have := ih (past ++ [(k, v)]) { m with present := p, len := l, data := m.data.set (k - lo).toNat v }
      (fun e he => hw e (by simp [he])) h1 (by simp [h2]) m2 (by
        intro j hj x hx
        rw [lastFor_append] at hx
        simp only [List.getElem?_set]
        by_cases e : lo + (j : Int) = k
        · rw [if_pos e] at hx
          have : (k - lo).toNat = j := by omega
          rw [if_pos this, if_pos (by omega), hx]
        · rw [if_neg e] at hx
          have : ¬ (k - lo).toNat = j := by omega
          rw [if_neg this]; exact h4 j hj x hx)
    obtain ⟨m', r1, r2, r3, r4, r5⟩ := this
    refine ⟨m', by simp only [DMap.run, hins]; exact r1, r2, r3, ?_, ?_⟩
    · simpa [List.append_assoc] using r4
    · simpa [List.append_assoc] using r5

theorem dmapNP_run (lo : Int) (slots : Nat) : ∀ (ops past : List (Int × Int)) (m : DMapNP),
    (∀ e ∈ ops, lo ≤ e.1 ∧ e.1 < lo + slots) → m.lo = lo → m.data.length = slots →
    (∀ j < slots, ∀ v, lastFor (lo + j) past = some v → m.data[j]? = some v) →
    ∃ m', m.run ops = some m' ∧ m'.lo = lo ∧ m'.data.length = slots ∧ m'.len = m.len + ops.length ∧
      ∀ j < slots, ∀ v, lastFor (lo + j) (past ++ ops) = some v → m'.data[j]? = some v := by
  intro ops
  induction ops with
  | nil => intro past m _ h1 h2 h4; exact ⟨m, rfl, h1, h2, rfl, by simpa using h4⟩
  | cons e rest ih =>
    intro past m hw h1 h2 h4
    obtain ⟨k, v⟩ := e
    have hk := hw (k, v) (by simp)
    have hins : m.insert k v = some { m with data := m.data.set (k - lo).toNat v, len := m.len + 1 } := by
      unfold DMapNP.insert
      rw [h1, h2, denseIdx_in lo k slots hk.1 hk.2]
    have := ih (past ++ [(k, v)]) { m with data := m.data.set (k - lo).toNat v, len := m.len + 1 }
      (fun e he => hw e (by simp [he])) h1 (by simp [h2]) (by
        intro j hj x hx
        rw [lastFor_append] at hx
        simp only [List.getElem?_set]
        by_cases e : lo + (j : Int) = k
        · rw [if_pos e] at hx
          have : (k - lo).toNat = j := by omega
          rw [if_pos this, if_pos (by omega), hx]
        · rw [if_neg e] at hx
          have : ¬ (k - lo).toNat = j := by omega
          rw [if_neg this]; exact h4 j hj x hx)
    obtain ⟨m', r1, r2, r3, r4, r5⟩ := this
    refine ⟨m', by simp only [DMapNP.run, hins]; exact r1, r2, r3, ?_, ?_⟩
    · rw [r4]; simp; omega
    · simpa [List.append_assoc] using r5

theorem dset_run (lo : Int) (slots : Nat) : ∀ (ops past : List (Int × Int)) (m : DSet),
    (∀ e ∈ ops, lo ≤ e.1 ∧ e.1 < lo + slots) → m.lo = lo →
    PInv m.present lo slots m.len past →
    ∃ m', m.run ops = some m' ∧ m'.lo = lo ∧ PInv m'.present lo slots m'.len (past ++ ops) := by
  intro ops
  induction ops with
  | nil => intro past m _ h1 h3; exact ⟨m, rfl, h1, by simpa using h3⟩
  | cons e rest ih =>
    intro past m hw h1 h3
    obtain ⟨k, v⟩ := e
    have hk := hw (k, v) (by simp)
    obtain ⟨p, l, m1, m2⟩ := pinv_insert h3 k v hk.1 hk.2
    have hsz : k < lo + ((m.present.length * 64 : Nat) : Int) := by
      have := h3.size; unfold wordsFor at this; omega
    have hins : m.insert k v = some { m with present := p, len := l } := by
      unfold DSet.insert
      rw [h1, denseIdx_in lo k _ hk.1 hsz]
      simp only [m1]
    obtain ⟨m', r1, r2, r4⟩ := ih (past ++ [(k, v)]) { m with present := p, len := l }
      (fun e he => hw e (by simp [he])) h1 m2
    exact ⟨m', by simp only [DSet.run, hins]; exact r1, r2, by simpa [List.append_assoc] using r4⟩

end Verif.Data
