import Verif.Vm.NanSpec

/-! # Lemmas on the eight-byte value -/
namespace Verif.Vm
variable {α : Type}

theorem Same.refl (a : RV α) : Same a a := .inl rfl

theorem Same.symm {a b : RV α} (h : Same a b) : Same b a := by
  rcases h with rfl | ⟨x, y, rfl, rfl, hx, hy⟩
  · exact .inl rfl
  · exact .inr ⟨y, x, rfl, rfl, hy, hx⟩

theorem Same.trans {a b c : RV α} (h : Same a b) (h' : Same b c) : Same a c := by
  rcases h with rfl | ⟨x, y, rfl, rfl, hx, hy⟩
  · exact h'
  · rcases h' with rfl | ⟨x', y', e, rfl, hx', hy'⟩
    · exact .inr ⟨x, y, rfl, rfl, hx, hy⟩
    · exact .inr ⟨x, y', rfl, rfl, hx, hy'⟩

theorem isNan_iff (bits : Nat) : isNan bits = true ↔ NotANumber bits := by
  unfold isNan NotANumber
  have h1 : bits &&& (2 ^ 52 - 1) = bits % 2 ^ 52 := Nat.and_two_pow_sub_one_eq_mod ..
  have h2 : (bits >>> 52) &&& 0x7FF = (bits / 2 ^ 52) % 2 ^ 11 := by
    rw [Nat.shiftRight_eq_div_pow]
    exact Nat.and_two_pow_sub_one_eq_mod (bits / 2 ^ 52) 11
  rw [h1, h2]
  simp only [Bool.and_eq_true, beq_iff_eq, bne_iff_ne]
  omega

/-- The words with a tag. -/
def tagged (t p : Nat) : Nat := 0xFFF8000000000000 + t * 2 ^ 48 + p

theorem or_eq (t p : Nat) (ht : t ≤ 3) (hp : p < 2 ^ 48) :
    qnan ||| (t <<< tagShift) ||| p = tagged t p := by
  have key : ∀ c : Nat, 2 ^ 48 * c ||| p = 2 ^ 48 * c + p :=
    fun c => (Nat.two_pow_add_eq_or_of_lt hp c).symm
  have h4 : t = 0 ∨ t = 1 ∨ t = 2 ∨ t = 3 := by omega
  rcases h4 with rfl | rfl | rfl | rfl
  · have := key 0xFFF8
    rw [show qnan ||| (0 <<< tagShift) = 2 ^ 48 * 0xFFF8 by decide, this]
    simp only [tagged]
  · have := key 0xFFF9
    rw [show qnan ||| (1 <<< tagShift) = 2 ^ 48 * 0xFFF9 by decide, this]
    simp only [tagged]
  · have := key 0xFFFA
    rw [show qnan ||| (2 <<< tagShift) = 2 ^ 48 * 0xFFFA by decide, this]
    simp only [tagged]
  · have := key 0xFFFB
    rw [show qnan ||| (3 <<< tagShift) = 2 ^ 48 * 0xFFFB by decide, this]
    simp only [tagged]

theorem payload_eq (w : Nat) : w &&& payloadMask = w % 2 ^ 48 :=
  Nat.and_two_pow_sub_one_eq_mod w 48

theorem tagOf_eq (w : Nat) : tagOf w = (w / 2 ^ 48) % 4 := by
  unfold tagOf tagShift tagMask
  rw [Nat.shiftRight_eq_div_pow]
  exact Nat.and_two_pow_sub_one_eq_mod (w / 2 ^ 48) 2

theorem isTagged_iff (w : Nat) :
    isTagged w = true ↔ 0xFFF8000000000000 ≤ w ∧ w ≠ 0xFFFFFFFFFFFFFFFF := by
  unfold isTagged qnan canonicalNan
  rw [Bool.and_eq_true, bne_iff_ne, decide_eq_true_iff]

theorem tagged_isTagged (t p : Nat) (ht : t ≤ 3) (hp : p < 2 ^ 48) : isTagged (tagged t p) = true := by
  rw [isTagged_iff]
  unfold tagged
  omega

theorem tagged_tag (t p : Nat) (ht : t ≤ 3) (hp : p < 2 ^ 48) : tagOf (tagged t p) = t := by
  rw [tagOf_eq]
  unfold tagged
  omega

theorem tagged_payload (t p : Nat) (hp : p < 2 ^ 48) : tagged t p &&& payloadMask = p := by
  rw [payload_eq]
  unfold tagged
  omega

theorem signExtend_tagged (t : Nat) (n : Int) (h : -(2 ^ 47) ≤ n ∧ n ≤ 2 ^ 47 - 1) :
    signExtend (tagged t (n % 2 ^ 48).toNat) = n := by
  unfold signExtend
  rw [tagged_payload _ _ (by omega), Nat.shiftLeft_eq]
  unfold asI64
  split <;> omega

theorem asU64_payload (n : Int) : asU64 n &&& payloadMask = (n % 2 ^ 48).toNat := by
  rw [payload_eq]
  unfold asU64
  omega

theorem float_isTagged (f : Nat) (h : f < qnan ∨ f = canonicalNan) : isTagged f = false := by
  rcases h with h | rfl
  · unfold qnan at h
    rw [← Bool.not_eq_true, isTagged_iff]
    omega
  · decide

/-- The words that are not boxed, and what they stand for. -/
def Inline (w : Nat) : RV α → Prop
  | .int n => (-(2 ^ 47) ≤ n ∧ n ≤ 2 ^ 47 - 1) ∧ w = tagged 0 (n % 2 ^ 48).toNat
  | .float f => w = f ∧ f < 2 ^ 64 ∧ (f < qnan ∨ f = canonicalNan)
  | .bool b => w = tagged 1 b.toNat
  | .nothing => w = tagged 2 0
  | .other _ => False

theorem Inline.wf {w : Nat} {v : RV α} (h : Inline w v) : Wf v := by
  cases v <;> simp only [Inline, Wf] at * <;> omega

theorem Inline.not_heap {w : Nat} {v : RV α} (h : Inline w v) : isHeap w = false := by
  cases v with
  | int n =>
    have ht := tagged_tag 0 (n % 2 ^ 48).toNat (by decide) (by omega)
    rw [h.2, isHeap, ht]; simp [tagHeap]
  | float f => obtain ⟨rfl, _, h⟩ := h; simp [isHeap, float_isTagged _ h]
  | bool b =>
    rw [show w = _ from h]
    simp [isHeap, tagged_tag 1 b.toNat (by decide) (by cases b <;> decide), tagHeap]
  | nothing => rw [show w = _ from h]; simp [isHeap, tagged_tag 2 0 (by decide) (by decide), tagHeap]
  | other x => exact h.elim

theorem Inline.toRuntime {w : Nat} {v : RV α} (h : Inline w v) (m : Mem α) :
    toRuntime m w = .ok v := by
  cases v with
  | int n =>
    have hp : (n % 2 ^ 48).toNat < 2 ^ 48 := by omega
    rw [h.2, Vm.toRuntime, tagged_isTagged 0 _ (by decide) hp, tagged_tag 0 _ (by decide) hp,
      signExtend_tagged 0 n h.1]
    simp [tagInt]
  | float f => obtain ⟨rfl, _, h⟩ := h; simp [Vm.toRuntime, float_isTagged _ h]
  | bool b =>
    have hp : b.toNat < 2 ^ 48 := by cases b <;> decide
    rw [show w = _ from h]
    simp only [Vm.toRuntime, tagged_isTagged 1 _ (by decide) hp, tagged_tag 1 _ (by decide) hp, tagInt,
      tagBool, tagged_payload 1 _ hp]
    cases b <;> simp
  | nothing =>
    rw [show w = _ from h]
    simp [Vm.toRuntime, tagged_isTagged 2 0 (by decide) (by decide),
      tagged_tag 2 0 (by decide) (by decide), tagInt, tagBool, tagNothing]
  | other x => exact h.elim

theorem Inline.intoRuntime {w : Nat} {v : RV α} (h : Inline w v) (m : Mem α) :
    intoRuntime m w = .ok (m, v) := by
  have h1 := h.toRuntime m
  have h2 := h.not_heap
  unfold Vm.toRuntime at h1
  unfold Vm.intoRuntime
  unfold isHeap at h2
  by_cases ht : isTagged w = true
  · simp only [ht, Bool.not_true, Bool.false_eq_true, if_false, Bool.true_and, beq_eq_false_iff_ne] at *
    split at h1
    · rw [if_pos ‹_›]; cases h1; rfl
    rw [if_neg ‹_›]
    split at h1
    · rw [if_pos ‹_›]; cases h1; rfl
    rw [if_neg ‹_›]
    split at h1
    · rw [if_pos ‹_›]; cases h1; rfl
    · exfalso
      rename_i a b c
      rw [tagOf_eq] at *
      simp only [tagInt, tagBool, tagNothing, tagHeap] at *
      omega
  · simp [ht] at h1 ⊢
    exact h1

theorem Inline.asBool {w : Nat} {v : RV α} (h : Inline w v) :
    asBool w = v.bool? := by
  cases v with
  | int n =>
    have hp : (n % 2 ^ 48).toNat < 2 ^ 48 := by omega
    rw [h.2, Vm.asBool, tagged_tag 0 _ (by decide) hp]
    simp [tagBool, RV.bool?]
  | float f => obtain ⟨rfl, _, h⟩ := h; simp [Vm.asBool, RV.bool?, float_isTagged _ h]
  | bool b =>
    have hp : b.toNat < 2 ^ 48 := by cases b <;> decide
    rw [show w = _ from h]
    simp only [Vm.asBool, RV.bool?, tagged_isTagged 1 _ (by decide) hp, tagged_tag 1 _ (by decide) hp,
      tagBool, tagged_payload 1 _ hp]
    cases b <;> simp
  | nothing =>
    rw [show w = _ from h]
    simp [Vm.asBool, RV.bool?, tagged_tag 2 0 (by decide) (by decide), tagBool]
  | other x => exact h.elim

theorem Inline.asFloat {w : Nat} {v : RV α} (h : Inline w v) :
    asFloat w = v.float? := by
  cases v with
  | int n =>
    have hp : (n % 2 ^ 48).toNat < 2 ^ 48 := by omega
    rw [h.2, Vm.asFloat, tagged_isTagged 0 _ (by decide) hp]
    simp [RV.float?]
  | float f => obtain ⟨rfl, _, h⟩ := h; simp [Vm.asFloat, RV.float?, float_isTagged _ h]
  | bool b =>
    rw [show w = _ from h]
    simp [Vm.asFloat, RV.float?, tagged_isTagged 1 b.toNat (by decide) (by cases b <;> decide)]
  | nothing =>
    rw [show w = _ from h]
    simp [Vm.asFloat, RV.float?, tagged_isTagged 2 0 (by decide) (by decide)]
  | other x => exact h.elim

theorem Inline.asInlineInt {w : Nat} {v : RV α} (h : Inline w v) :
    asInlineInt w = v.int? := by
  cases v with
  | int n =>
    have hp : (n % 2 ^ 48).toNat < 2 ^ 48 := by omega
    rw [h.2, Vm.asInlineInt, tagged_isTagged 0 _ (by decide) hp, tagged_tag 0 _ (by decide) hp,
      signExtend_tagged 0 n h.1]
    simp [tagInt, RV.int?]
  | float f => obtain ⟨rfl, _, h⟩ := h; simp [Vm.asInlineInt, RV.int?, float_isTagged _ h]
  | bool b =>
    have hp : b.toNat < 2 ^ 48 := by cases b <;> decide
    rw [show w = _ from h]
    simp [Vm.asInlineInt, RV.int?, tagged_tag 1 _ (by decide) hp, tagInt]
  | nothing =>
    rw [show w = _ from h]
    simp [Vm.asInlineInt, RV.int?, tagged_tag 2 0 (by decide) (by decide), tagInt]
  | other x => exact h.elim

theorem Inline.asInt {w : Nat} {v : RV α} (h : Inline w v) (m : Mem α) :
    asInt m w = .ok v.int? := by
  cases v with
  | int n =>
    have hp : (n % 2 ^ 48).toNat < 2 ^ 48 := by omega
    rw [h.2, Vm.asInt, tagged_isTagged 0 _ (by decide) hp, tagged_tag 0 _ (by decide) hp,
      signExtend_tagged 0 n h.1]
    simp [tagInt, RV.int?]
  | float f => obtain ⟨rfl, _, h⟩ := h; simp [Vm.asInt, RV.int?, float_isTagged _ h]
  | bool b =>
    have hp : b.toNat < 2 ^ 48 := by cases b <;> decide
    rw [show w = _ from h]
    simp [Vm.asInt, RV.int?, tagged_isTagged 1 _ (by decide) hp, tagged_tag 1 _ (by decide) hp, tagInt, tagHeap]
  | nothing =>
    rw [show w = _ from h]
    simp [Vm.asInt, RV.int?, tagged_isTagged 2 0 (by decide) (by decide), tagged_tag 2 0 (by decide) (by decide),
      tagInt, tagHeap]
  | other x => exact h.elim

/-! ## Boxed words -/

theorem isHeap_tag {w : Nat} (h : isHeap w = true) : isTagged w = true ∧ tagOf w = 3 := by
  simpa [isHeap, tagHeap] using h

theorem heap_toRuntime {w : Nat} (h : isHeap w = true) (m : Mem α) : toRuntime m w = heapRef m w := by
  obtain ⟨h1, h2⟩ := isHeap_tag h
  simp [toRuntime, h1, h2, tagInt, tagBool, tagNothing]

theorem heap_asBool {w : Nat} (h : isHeap w = true) : asBool w = none := by
  obtain ⟨h1, h2⟩ := isHeap_tag h
  simp [asBool, h1, h2, tagBool]

theorem heap_asFloat {w : Nat} (h : isHeap w = true) : asFloat w = none := by
  obtain ⟨h1, h2⟩ := isHeap_tag h
  simp [asFloat, h1]

theorem heap_asInlineInt {w : Nat} (h : isHeap w = true) : asInlineInt w = none := by
  obtain ⟨h1, h2⟩ := isHeap_tag h
  simp [asInlineInt, h1, h2, tagInt]

theorem heap_asInt {w : Nat} (h : isHeap w = true) (m : Mem α) (v : RV α)
    (hv : m (ptrOf w) = some v) :
    asInt m w = .ok v.int? := by
  obtain ⟨h1, h2⟩ := isHeap_tag h
  simp only [asInt, h1, h2, tagInt, tagHeap, heapRef, hv]
  cases v <;> simp [RV.int?]

theorem ptr_heap {p : Nat} (hp : p < 2 ^ 48) :
    isHeap (tagged 3 p) = true ∧ ptrOf (tagged 3 p) = p := by
  simp [isHeap, tagged_isTagged 3 p (by decide) hp, tagged_tag 3 p (by decide) hp, tagHeap, ptrOf,
    tagged_payload 3 p hp]

theorem heap_ok {pick : Mem α → Option Nat} (hk : GoodAllocator pick) {m m' : Mem α} {v : RV α} {w : Nat}
    (h : heap pick m v = .ok (m', w)) :
    isHeap w = true ∧ m (ptrOf w) = none ∧ m' = m.set (ptrOf w) (some v) := by
  unfold heap at h
  cases hp : pick m with
  | none => rw [hp] at h; simp at h
  | some p =>
    rw [hp] at h
    obtain ⟨h1, h2⟩ := hk m p hp
    simp only [Except.ok.injEq, Prod.mk.injEq] at h
    obtain ⟨rfl, rfl⟩ := h
    have e : p &&& payloadMask = p := by rw [payload_eq]; omega
    rw [e, or_eq tagHeap p (by decide) h2]
    have := ptr_heap h2
    unfold tagHeap
    rw [this.2]
    exact ⟨this.1, h1, rfl⟩

theorem heap_err {pick : Mem α → Option Nat} {m : Mem α} {v : RV α} {e : Stop}
    (h : heap pick m v = .error e) : e = .oom := by
  unfold heap at h
  cases hp : pick m with
  | none => rw [hp] at h; cases h; rfl
  | some p => rw [hp] at h; simp at h

/-- What making a word does: either a word that owns nothing, or a fresh box. -/
def Made (m : Mem α) (v : RV α) (m' : Mem α) (w : Nat) : Prop :=
  (m' = m ∧ ∃ u, Same u v ∧ Inline w u) ∨
  (isHeap w = true ∧ m (ptrOf w) = none ∧ Wf v ∧ m' = m.set (ptrOf w) (some v) ∧
    (∀ b, v ≠ .bool b) ∧ (∀ f, v ≠ .float f) ∧ v ≠ .nothing)

theorem fromRuntime_ok {pick : Mem α → Option Nat} (hk : GoodAllocator pick) {m m' : Mem α} {v : RV α}
    {w : Nat} (hv : Wf v) (h : fromRuntime pick m v = .ok (m', w)) : Made m v m' w := by
  cases v with
  | int n =>
    simp only [fromRuntime, mkInt] at h
    split at h
    · rename_i hr
      simp only [Except.ok.injEq, Prod.mk.injEq] at h
      obtain ⟨rfl, rfl⟩ := h
      refine .inl ⟨rfl, .int n, .refl _, hr, ?_⟩
      rw [asU64_payload]
      exact or_eq 0 _ (by decide) (by omega)
    · have := heap_ok hk h
      exact .inr ⟨this.1, this.2.1, hv, this.2.2, by simp, by simp, by simp⟩
  | float f =>
    simp only [fromRuntime, Except.ok.injEq, Prod.mk.injEq] at h
    obtain ⟨rfl, rfl⟩ := h
    unfold mkFloat
    split
    · rename_i hn
      refine .inl ⟨rfl, .float canonicalNan, .inr ⟨_, _, rfl, rfl, ?_, (isNan_iff f).1 hn⟩, rfl, by decide,
        .inr rfl⟩
      simp [NotANumber, canonicalNan]
    · rename_i hn
      rw [isNan_iff] at hn
      refine .inl ⟨rfl, .float f, .refl _, rfl, hv, .inl ?_⟩
      simp only [NotANumber, Wf, qnan] at *
      omega
  | bool b =>
    simp only [fromRuntime, Except.ok.injEq, Prod.mk.injEq] at h
    obtain ⟨rfl, rfl⟩ := h
    exact .inl ⟨rfl, .bool b, .refl _, or_eq 1 _ (by decide) (by cases b <;> decide)⟩
  | nothing =>
    simp only [fromRuntime, Except.ok.injEq, Prod.mk.injEq] at h
    obtain ⟨rfl, rfl⟩ := h
    exact .inl ⟨rfl, .nothing, .refl _, show mkNothing = tagged 2 0 by decide⟩
  | other x =>
    have := heap_ok hk h
    exact .inr ⟨this.1, this.2.1, hv, this.2.2, by simp, by simp, by simp⟩

theorem fromRuntime_err {pick : Mem α → Option Nat} {m : Mem α} {v : RV α} {e : Stop}
    (h : fromRuntime pick m v = .error e) : e = .oom := by
  cases v with
  | int n =>
    simp only [fromRuntime, mkInt] at h
    split at h
    · simp at h
    · exact heap_err h
  | other x => exact heap_err h
  | _ => simp [fromRuntime] at h

end Verif.Vm
