import Verif.Data.Index
import Verif.Data.OpenMapLemmas
import Verif.Data.DenseLemmas
import Verif.Data.DivLemmas

/-! # C39–C42: indexing, integer maps and sets, fixed-divisor division -/
namespace Verif.Props
open Verif.Data

/-! ## C39 -/

/-- Specification: what index `i` of a sequence means: `1` is the first element, `-1` the last. -/
def elementAt {A : Type} (v : List A) (i : Int) : Option A :=
  if 1 ≤ i then v[(i - 1).toNat]?
  else if i ≤ -1 then v.reverse[(-i - 1).toNat]?
  else none

theorem rev_get {A : Type} (v : List A) (j : Nat) (h : j < v.length) :
    v.reverse[j]? = v[v.length - 1 - j]? := by
  rw [List.getElem?_reverse h]

theorem resolve_some {index : Int} {len i : Nat} (h : resolveIndex index len = some i) :
    i < len ∧ ((1 ≤ index ∧ i = (index - 1).toNat) ∨ (index ≤ -1 ∧ i + index.natAbs = len)) := by
  simp only [resolveIndex] at h
  split at h
  · split at h
    · simp at h
    · simp at h; omega
  · split at h
    · split at h
      · simp at h
      · simp at h; omega
    · simp at h

theorem resolve_none {index : Int} {len : Nat} (h : resolveIndex index len = none) :
    index = 0 ∨ (len : Int) < index ∨ index < -(len : Int) := by
  simp only [resolveIndex] at h
  split at h
  · split at h
    · omega
    · simp at h
  · split at h
    · split at h
      · omega
      · simp at h
    · omega

/-- **C39**: reading index `i` yields the element it means, and fails exactly when there is none. -/
theorem C39_get {A : Type} (v : List A) (i : Int) : seqGet v i = elementAt v i := by
  unfold seqGet elementAt
  cases h : resolveIndex i v.length with
  | none =>
    rcases resolve_none h with h | h | h
    · rw [if_neg (by omega), if_neg (by omega)]
    · rw [if_pos (by omega), List.getElem?_eq_none (by omega)]
    · rw [if_neg (by omega), if_pos (by omega), List.getElem?_eq_none (by rw [List.length_reverse]; omega)]
  | some j =>
    obtain ⟨h1, h2 | h2⟩ := resolve_some h
    · rw [if_pos h2.1, h2.2]
    · rw [if_neg (by omega), if_pos h2.1, rev_get _ _ (by omega)]
      have : v.length - 1 - (-i - 1).toNat = j := by omega
      rw [this]

/-- **C39**: exactly the indices `1..len` and `-len..-1` are accepted. -/
theorem C39_get_defined {A : Type} (v : List A) (i : Int) :
    (seqGet v i).isSome ↔ (1 ≤ i ∧ i ≤ v.length) ∨ (i ≤ -1 ∧ -(v.length : Int) ≤ i) := by
  rw [C39_get]; unfold elementAt
  split
  · rw [Option.isSome_iff_ne_none, ne_eq, List.getElem?_eq_none_iff]; omega
  · split
    · rw [Option.isSome_iff_ne_none, ne_eq, List.getElem?_eq_none_iff, List.length_reverse]; omega
    · simp; omega

example : seqGet [10, 20, 30] 1 = some 10 ∧ seqGet [10, 20, 30] (-1) = some 30 ∧
    seqGet [10, 20, 30] 0 = none ∧ seqGet [10, 20, 30] 4 = none ∧ seqGet [10, 20, 30] (-4) = none := by
  decide

/-- Specification: the position from the front that an index names. -/
def positionOf (len : Nat) (i : Int) : Int := if 1 ≤ i then i else len + 1 + i

/-- **C39**: writing index `i` is accepted exactly when reading it is; afterwards every index naming
that position reads the new value, every other index reads what it did, and the length is the same. -/
theorem C39_set {A : Type} (v : List A) (i : Int) (x : A) :
    ((seqSet v i x).isSome ↔ (seqGet v i).isSome) ∧
    ∀ v', seqSet v i x = some v' → v'.length = v.length ∧
      ∀ j : Int, seqGet v' j = if (seqGet v j).isSome ∧ positionOf v.length j = positionOf v.length i
        then some x else seqGet v j := by
  refine ⟨?_, ?_⟩
  · unfold seqSet seqGet
    cases h : resolveIndex i v.length with
    | none => simp
    | some k =>
      have := (resolve_some h).1
      simp [this]
  · intro v' h
    unfold seqSet at h
    cases hr : resolveIndex i v.length with
    | none => simp [hr] at h
    | some k =>
      have hk := resolve_some hr
      simp only [hr, if_pos hk.1, Option.some.injEq] at h
      subst h
      refine ⟨by simp, fun j => ?_⟩
      have hpi : positionOf v.length i = k + 1 := by
        unfold positionOf; split <;> omega
      unfold seqGet
      rw [List.length_set]
      cases hj : resolveIndex j v.length with
      | none => simp
      | some l =>
        have hl := resolve_some hj
        have hpj : positionOf v.length j = l + 1 := by
          unfold positionOf; split <;> omega
        simp only [hpi, hpj, List.getElem?_set]
        by_cases e : k = l
        · subst e; simp [hk.1]
        · rw [if_neg e, if_neg (by intro hc; apply e; omega)]

example : seqSet [10, 20, 30] (-1) 99 = some [10, 20, 99] ∧ seqSet [10, 20, 30] 2 99 = some [10, 99, 30] ∧
    seqSet [10, 20, 30] 4 99 = none := by decide

theorem ascii_bytes (s : List Nat) (h : ∀ c ∈ s, c < 128) : textBytes s = s := by
  induction s with
  | nil => rfl
  | cons c s ih =>
    have hc : c < 128 := h c (by simp)
    have := ih (fun a ha => h a (by simp [ha]))
    unfold textBytes at *
    rw [List.flatMap_cons, this]
    simp [utf8Bytes, hc]

/-- **C39**, texts: index `i` yields the character it means when every character of the text is
ASCII.  Missing: texts with other characters, where the claim is false (`C39_text_fails`). -/
theorem C39_text_partial (s : List Nat) (h : ∀ c ∈ s, c < 128) (i : Int) : textGet s i = elementAt s i := by
  have hat : ∀ idx, textAt s idx = s[idx]? := by
    intro idx
    unfold textAt
    rw [ascii_bytes s h]
    cases hx : s[idx]? with
    | none => rfl
    | some b => simp [h b (List.mem_of_getElem? hx)]
  rw [← C39_get]
  unfold textGet textPos
  by_cases hi : i ≥ 1
  · rw [if_pos hi]
    simp only [hat]
    rw [C39_get]; unfold elementAt; rw [if_pos hi]
  · rw [if_neg hi]
    unfold seqGet
    cases resolveIndex i s.length with
    | none => rfl
    | some k => exact hat k

/-- "abc" meets the hypothesis. -/
example : (∀ c ∈ [97, 98, 99], c < 128) ∧ textGet [97, 98, 99] (-2) = some 98 := by decide

/-- **C39**, texts: a positive index up to and including the first character outside ASCII yields
the character it means.  Missing: positions after that character (`C39_text_fails`). -/
theorem C39_text_prefix_partial (p rest : List Nat) (c : Nat) (h : ∀ x ∈ p, x < 128) (i : Int)
    (h1 : 1 ≤ i) (h2 : i ≤ (p.length : Int) + 1) :
    textGet (p ++ c :: rest) i = elementAt (p ++ c :: rest) i := by
  have hb : textBytes (p ++ c :: rest) = p ++ (utf8Bytes c ++ textBytes rest) := by
    have := ascii_bytes p h
    unfold textBytes at *
    rw [List.flatMap_append, this, List.flatMap_cons]
  have hat : ∀ idx, idx ≤ p.length → textAt (p ++ c :: rest) idx = (p ++ c :: rest)[idx]? := by
    intro idx hi
    unfold textAt
    rw [hb]
    rcases Nat.lt_or_eq_of_le hi with hlt | rfl
    · rw [List.getElem?_append_left hlt, List.getElem?_append_left hlt, List.getElem?_eq_getElem hlt]
      simp [h _ (List.getElem_mem hlt)]
    · rw [List.getElem?_append_right (Nat.le_refl _), List.getElem?_append_right (Nat.le_refl _)]
      simp only [Nat.sub_self, List.getElem?_cons_zero]
      by_cases hc : c < 128
      · simp [utf8Bytes, hc]
      · have : ∃ b bs, utf8Bytes c = b :: bs ∧ 128 ≤ b := by
          unfold utf8Bytes
          rw [if_neg hc]
          split
          · exact ⟨_, _, rfl, by omega⟩
          · split
            · exact ⟨_, _, rfl, by omega⟩
            · exact ⟨_, _, rfl, by omega⟩
        obtain ⟨b, bs, e, hb⟩ := this
        rw [e]
        simp only [List.cons_append, List.getElem?_cons_zero]
        rw [if_neg (by omega)]
  unfold textGet textPos
  rw [if_pos h1]
  simp only
  rw [hat _ (by omega)]
  unfold elementAt
  rw [if_pos h1]

/-- The second character of "aé!" is reached although it is not ASCII. -/
example : (∀ x ∈ [97], x < 128) ∧ textGet ([97] ++ 233 :: [33]) 2 = some 233 := by decide

/-- **C39** fails for texts with a character outside ASCII: the third character of "éab" is `b`, but
index 3 reads `a`; and "éa" has no third character, but index 3 reads `a` instead of failing. -/
theorem C39_text_fails :
    (textGet [233, 97, 98] 3 = some 97 ∧ elementAt [233, 97, 98] 3 = some 98) ∧
    (textGet [233, 97] 3 = some 97 ∧ elementAt [233, 97] 3 = none) := by
  decide

/-! ## C40 -/

/-- Specification: the number of different keys inserted. -/
def distinctKeys {K A : Type} [DecidableEq K] (ops : List (K × A)) : Nat := (ops.map Prod.fst).toFinset.card

/-- A run of inserts through a type's own `insert`. -/
def runWith {M K A : Type} (insert : M → K → A → Option M) (m : M) : List (K × A) → Option M
  | [] => some m
  | (k, v) :: rest =>
    match insert m k v with
    | none => none
    | some m' => runWith insert m' rest

theorem omap_main {w : Nat} {V : Type} (d : V) (m : OMap w V) (h0 : MInv d m (fun _ => none)) (hl : m.len = 0)
    (ops : List (BitVec w × V)) :
    ∃ m', m.run d ops = some m' ∧ m'.len = distinctKeys ops ∧ ∀ k, m'.get d k = some (lastFor k ops) := by
  obtain ⟨m', h1, h2, h3⟩ := run_spec d ops [] m (by simpa [lastFor] using h0) (by simpa using hl)
  refine ⟨m', h1, ?_, fun k => ?_⟩
  · rw [h3]; unfold distinctKeys; rw [List.card_toFinset]; rfl
  · have := get_spec d m' _ h2 k; simpa using this

theorem len_withCapacity {w : Nat} {V : Type} (d : V) (cap : Nat) : (OMap.withCapacity d cap : OMap w V).len = 0 := by
  unfold OMap.withCapacity; split <;> rfl

/-- `new` is `with_capacity(0)`. -/
theorem new_eq {w : Nat} {V : Type} (d : V) : (OMap.new d : OMap w V) = OMap.withCapacity d 0 := rfl

/-- Renaming the inserts of a run. -/
theorem runWith_map {w : Nat} {V K A : Type} (d : V) (fk : K → BitVec w) (fv : A → V) (ops : List (K × A))
    (m : OMap w V) :
    runWith (fun m k v => OMap.insert d m (fk k) (fv v)) m ops = m.run d (ops.map fun e => (fk e.1, fv e.2)) := by
  induction ops generalizing m with
  | nil => rfl
  | cons e ops ih =>
    obtain ⟨k, v⟩ := e
    simp only [runWith, List.map_cons, OMap.run]
    cases m.insert d (fk k) (fv v) with
    | none => rfl
    | some m' => exact ih m'

theorem lastFor_map {K A K' A' : Type} [DecidableEq K] [DecidableEq K'] (fk : K → K') (fv : A → A')
    (ops : List (K × A)) (k : K) (hinj : ∀ e ∈ ops, fk e.1 = fk k → e.1 = k) :
    lastFor (fk k) (ops.map fun e => (fk e.1, fv e.2)) = (lastFor k ops).map fv := by
  induction ops with
  | nil => rfl
  | cons e ops ih =>
    obtain ⟨a, v⟩ := e
    have ih := ih (fun e he => hinj e (by simp [he]))
    simp only [List.map_cons, lastFor, ih]
    cases lastFor k ops with
    | some x => rfl
    | none =>
      simp only [Option.map_none]
      by_cases e : a = k
      · simp [e]
      · rw [if_neg e, if_neg (fun hc => e (hinj (a, v) (by simp) hc))]; rfl

theorem distinct_map {K A K' A' : Type} [DecidableEq K] [DecidableEq K'] (fk : K → K') (fv : A → A')
    (ops : List (K × A)) (hinj : ∀ e ∈ ops, ∀ e' ∈ ops, fk e.1 = fk e'.1 → e.1 = e'.1) :
    distinctKeys (ops.map fun e => (fk e.1, fv e.2)) = distinctKeys ops := by
  unfold distinctKeys
  have : (ops.map fun e => (fk e.1, fv e.2)).map Prod.fst = (ops.map Prod.fst).map fk := by
    simp [List.map_map, Function.comp_def]
  rw [this]
  have himg : ((ops.map Prod.fst).map fk).toFinset = (ops.map Prod.fst).toFinset.image fk := by
    ext x; simp
  rw [himg]
  apply Finset.card_image_of_injOn
  intro a ha b hb hab
  simp only [List.coe_toFinset, Set.mem_setOf_eq, List.mem_map] at ha hb
  obtain ⟨e, he, rfl⟩ := ha
  obtain ⟨e', he', rfl⟩ := hb
  exact hinj e he e' he' hab

/-- **C40**, the 64-bit map, from any initial capacity (0 is `new`): every insert and every lookup
ends, a lookup yields the value last inserted for the key or nothing, and the length is the number
of different keys. -/
theorem C40_i64_map (cap : Nat) (ops : List (BitVec 64 × BitVec 64)) :
    ∃ m : I64Map, runWith I64Map.insert (OMap.withCapacity 0#64 cap) ops = some m ∧
      m.len = distinctKeys ops ∧ ∀ k, m.get k = some (lastFor k ops) := by
  obtain ⟨m, h1, h2, h3⟩ := omap_main 0#64 (OMap.withCapacity 0#64 cap) (minv_withCapacity _ cap)
    (len_withCapacity _ cap) ops
  refine ⟨m, ?_, h2, h3⟩
  have := runWith_map 0#64 (fun k : BitVec 64 => k) (fun v : BitVec 64 => v) ops (OMap.withCapacity 0#64 cap)
  rw [← h1]
  simp only [Prod.mk.eta, List.map_id'] at this
  exact this

/-- **C40**, the 64-bit set. -/
theorem C40_i64_set (cap : Nat) (ops : List (BitVec 64 × BitVec 64)) :
    ∃ m : I64Set, runWith I64Set.insert (OMap.withCapacity () cap) ops = some m ∧
      m.len = distinctKeys ops ∧ ∀ k, m.contains k = some (decide (k ∈ ops.map Prod.fst)) := by
  obtain ⟨m, h1, h2, h3⟩ := omap_main () (OMap.withCapacity () cap) (minv_withCapacity _ cap)
    (len_withCapacity _ cap) (ops.map fun e => (e.1, ()))
  refine ⟨m, ?_, ?_, fun k => ?_⟩
  · have := runWith_map () (fun k : BitVec 64 => k) (fun _ : BitVec 64 => ()) ops (OMap.withCapacity () cap)
    rw [← h1]; exact this
  · rw [h2]; exact distinct_map (fun k => k) (fun _ => ()) ops (fun _ _ _ _ h => h)
  · unfold I64Set.contains
    rw [h3, lastFor_map (fun k => k) (fun _ => ()) ops k (fun _ _ h => h)]
    simp only [Option.map_some, Option.isSome_map, Option.some.injEq]
    rw [Bool.eq_iff_iff, decide_eq_true_iff, Option.isSome_iff_ne_none, ne_eq, lastFor_none, not_not]

/-- Specification: the 64-bit word holds a number of the `i32` range. -/
def Fits32 (x : BitVec 64) : Prop := -2147483648 ≤ x.toInt ∧ x.toInt < 2147483648

theorem fits_roundtrip (x : BitVec 64) (h : Fits32 x) : (x.setWidth 32).signExtend 64 = x := by
  apply BitVec.eq_of_toInt_eq
  rw [BitVec.toInt_signExtend, BitVec.toInt_setWidth]
  have : (x.toNat : Int).bmod (2 ^ 32) = x.toInt := by
    have e : x.toInt = (x.toNat : Int) ∨ x.toInt = (x.toNat : Int) - 2 ^ 64 := by
      rw [BitVec.toInt_eq_toNat_cond]; split <;> simp
    have hb := x.isLt
    unfold Fits32 at h
    rw [Int.bmod_def]
    rcases e with e | e <;> split <;> omega
  rw [this]
  unfold Fits32 at h
  rw [Int.bmod_def]
  simp only [Nat.min_def]
  split <;> split <;> omega

theorem fits_inj (x y : BitVec 64) (hx : Fits32 x) (hy : Fits32 y) (h : x.setWidth 32 = y.setWidth 32) : x = y := by
  rw [← fits_roundtrip x hx, ← fits_roundtrip y hy, h]

/-- **C40**, the 32-bit map, for keys and values of the `i32` range (the compiler picks this type only
when they are). -/
theorem C40_i32_map (cap : Nat) (ops : List (BitVec 64 × BitVec 64))
    (hf : ∀ e ∈ ops, Fits32 e.1 ∧ Fits32 e.2) :
    ∃ m : I32Map, runWith I32Map.insert (OMap.withCapacity 0#32 cap) ops = some m ∧
      m.len = distinctKeys ops ∧ ∀ k, Fits32 k → m.get k = some (lastFor k ops) := by
  obtain ⟨m, h1, h2, h3⟩ := omap_main 0#32 (OMap.withCapacity 0#32 cap) (minv_withCapacity _ cap)
    (len_withCapacity _ cap) (ops.map fun e => (e.1.setWidth 32, e.2.setWidth 32))
  refine ⟨m, ?_, ?_, fun k hk => ?_⟩
  · have := runWith_map 0#32 (BitVec.setWidth (w := 64) 32) (BitVec.setWidth (w := 64) 32) ops
      (OMap.withCapacity 0#32 cap)
    rw [← h1]; exact this
  · rw [h2]
    exact distinct_map (BitVec.setWidth 32) (BitVec.setWidth 32) ops
      (fun e he e' he' h => fits_inj _ _ (hf e he).1 (hf e' he').1 h)
  · unfold I32Map.get
    rw [h3, lastFor_map (BitVec.setWidth 32) (BitVec.setWidth 32) ops k
      (fun e he h => fits_inj _ _ (hf e he).1 hk h)]
    simp only [Option.map_some, Option.map_map, Option.some.injEq]
    cases h : lastFor k ops with
    | none => rfl
    | some v =>
      simp only [Option.map_some, Function.comp, Option.some.injEq]
      apply fits_roundtrip
      have hmem : ∀ (l : List (BitVec 64 × BitVec 64)) (v), lastFor k l = some v → (k, v) ∈ l := by
        intro l
        induction l with
        | nil => intro v h; simp [lastFor] at h
        | cons e l ih =>
          obtain ⟨a, x⟩ := e
          intro v h
          simp only [lastFor] at h
          cases hl : lastFor k l with
          | some y => rw [hl] at h; simp at h; subst h; exact List.mem_cons_of_mem _ (ih _ hl)
          | none =>
            rw [hl] at h
            simp only at h
            split at h
            · rename_i e; simp only [Option.some.injEq] at h; rw [← e, ← h]; simp
            · simp at h
      exact (hf _ (hmem ops v h)).2

/-- **C40**, the 32-bit set, for keys of the `i32` range. -/
theorem C40_i32_set (cap : Nat) (ops : List (BitVec 64 × BitVec 64)) (hf : ∀ e ∈ ops, Fits32 e.1) :
    ∃ m : I32Set, runWith I32Set.insert (OMap.withCapacity () cap) ops = some m ∧
      m.len = distinctKeys ops ∧ ∀ k, Fits32 k → m.contains k = some (decide (k ∈ ops.map Prod.fst)) := by
  obtain ⟨m, h1, h2, h3⟩ := omap_main () (OMap.withCapacity () cap) (minv_withCapacity _ cap)
    (len_withCapacity _ cap) (ops.map fun e => (e.1.setWidth 32, ()))
  refine ⟨m, ?_, ?_, fun k hk => ?_⟩
  · have := runWith_map () (BitVec.setWidth (w := 64) 32) (fun _ : BitVec 64 => ()) ops
      (OMap.withCapacity () cap)
    rw [← h1]; exact this
  · rw [h2]
    exact distinct_map (BitVec.setWidth 32) (fun _ => ()) ops
      (fun e he e' he' h => fits_inj _ _ (hf e he) (hf e' he') h)
  · unfold I32Set.contains
    rw [h3, lastFor_map (BitVec.setWidth 32) (fun _ => ()) ops k (fun e he h => fits_inj _ _ (hf e he) hk h)]
    simp only [Option.map_some, Option.isSome_map, Option.some.injEq]
    rw [Bool.eq_iff_iff, decide_eq_true_iff, Option.isSome_iff_ne_none, ne_eq, lastFor_none, not_not]

/-- Negative and zero keys, an overwrite, and values at the edge of the range meet the hypotheses. -/
example : ∀ e ∈ [((-5 : BitVec 64), (7 : BitVec 64)), (0, -2147483648), (-5, 8)], Fits32 e.1 ∧ Fits32 e.2 := by
  unfold Fits32; decide

/-! ## C41 -/

/-- Specification: the key is in the window. -/
def InWindow (lo : Int) (slots : Nat) (k : Int) : Prop := lo ≤ k ∧ k < lo + slots

theorem lastFor_dec (k : Int) (ops : List (Int × Int)) :
    (lastFor k ops).isSome = decide (k ∈ ops.map Prod.fst) := by
  rw [Bool.eq_iff_iff, decide_eq_true_iff, Option.isSome_iff_ne_none, ne_eq, lastFor_none, not_not]

/-- **C41**, the dense map: inside its window it answers as a map does and never panics. -/
theorem C41_map (lo : Int) (slots : Nat) (ops : List (Int × Int)) (hw : ∀ e ∈ ops, InWindow lo slots e.1) :
    ∃ m, (DMap.withBounds lo slots).run ops = some m ∧ m.len = distinctKeys ops ∧
      ∀ k, InWindow lo slots k →
        m.get k = some (lastFor k ops) ∧ m.contains k = some (decide (k ∈ ops.map Prod.fst)) := by
  obtain ⟨m, h1, h2, h3, h4, h5⟩ := dmap_run lo slots ops [] (DMap.withBounds lo slots) hw rfl
    (by simp [DMap.withBounds]) (pinv_new lo slots) (by intro j _ v h; simp [lastFor] at h)
  simp only [List.nil_append] at h4 h5
  refine ⟨m, h1, ?_, fun k hk => ?_⟩
  · rw [h4.len]; unfold distinctKeys; rw [List.card_toFinset]
  · have hi := denseIdx_in lo k slots hk.1 hk.2
    have hlt : (k - lo).toNat < slots := by have := hk.1; have := hk.2; omega
    have hkk : lo + ((k - lo).toNat : Int) = k := by have := hk.1; omega
    have hb : bitSet m.present (k - lo).toNat = some (lastFor k ops).isSome := by
      rw [bitSet_spec _ _ (by rw [h4.size]; unfold wordsFor; omega), h4.bits _ hlt, hkk]
    refine ⟨?_, ?_⟩
    · unfold DMap.get
      rw [h2, h3, hi]; simp only [hb]
      cases hl : lastFor k ops with
      | none => rfl
      | some v => simp [h5 _ hlt v (by rw [hkk]; exact hl)]
    · unfold DMap.contains
      rw [h2, h3, hi]; simp only [hb]; rw [lastFor_dec]

/-- **C41**, the dense set. -/
theorem C41_set (lo : Int) (slots : Nat) (ops : List (Int × Int)) (hw : ∀ e ∈ ops, InWindow lo slots e.1) :
    ∃ m, (DSet.withBounds lo slots).run ops = some m ∧ m.len = distinctKeys ops ∧
      ∀ k, InWindow lo slots k → m.contains k = some (decide (k ∈ ops.map Prod.fst)) := by
  obtain ⟨m, h1, h2, h4⟩ := dset_run lo slots ops [] (DSet.withBounds lo slots) hw rfl (pinv_new lo slots)
  simp only [List.nil_append] at h4
  refine ⟨m, h1, ?_, fun k hk => ?_⟩
  · rw [h4.len]; unfold distinctKeys; rw [List.card_toFinset]
  · have hlt : (k - lo).toNat < slots := by have := hk.1; have := hk.2; omega
    have hkk : lo + ((k - lo).toNat : Int) = k := by have := hk.1; omega
    have hsz : slots ≤ m.present.length * 64 := by rw [h4.size]; unfold wordsFor; omega
    have hi := denseIdx_in lo k (m.present.length * 64) hk.1 (by have := hk.2; omega)
    unfold DSet.contains
    rw [h2, hi]
    simp only
    rw [bitSet_spec _ _ (by rw [h4.size]; unfold wordsFor; omega), h4.bits _ hlt, hkk, lastFor_dec]

/-- **C41**, the presence-free map: keys that were inserted read their last value, and nothing
panics.  Missing: keys of the window never inserted and the length, where the claim is false
(`C41_no_presence_fails`). -/
theorem C41_no_presence_partial (lo : Int) (slots : Nat) (ops : List (Int × Int))
    (hw : ∀ e ∈ ops, InWindow lo slots e.1) :
    ∃ m, (DMapNP.withBounds lo slots).run ops = some m ∧
      ∀ k, k ∈ ops.map Prod.fst → m.get k = some (lastFor k ops) := by
  obtain ⟨m, h1, h2, h3, _, h5⟩ := dmapNP_run lo slots ops [] (DMapNP.withBounds lo slots) hw rfl
    (by simp [DMapNP.withBounds]) (by intro j _ v h; simp [lastFor] at h)
  simp only [List.nil_append] at h5
  refine ⟨m, h1, fun k hk => ?_⟩
  obtain ⟨e, he, rfl⟩ := List.mem_map.mp hk
  have hk' := hw e he
  have hlt : (e.1 - lo).toNat < slots := by have := hk'.1; have := hk'.2; omega
  have hkk : lo + ((e.1 - lo).toNat : Int) = e.1 := by have := hk'.1; omega
  unfold DMapNP.get
  rw [h2, h3, denseIdx_in lo e.1 slots hk'.1 hk'.2]
  cases hl : lastFor e.1 ops with
  | none => exact absurd hk ((lastFor_none _ _).mp hl)
  | some v => simp [h5 _ hlt v (by rw [hkk]; exact hl)]

/-- A window from -3 to 96, with keys at both ends and an overwrite. -/
example : ∀ e ∈ [((-3 : Int), (5 : Int)), (96, 6), (0, 1), (-3, 7)], InWindow (-3) 100 e.1 := by
  unfold InWindow; decide

/-- **C41** fails for the presence-free map: a key never inserted reads `Some(0)`, and two inserts of
one key count twice. -/
theorem C41_no_presence_fails :
    ∃ m, (DMapNP.withBounds 0 4).run [(1, 5), (1, 6)] = some m ∧
      m.get 2 = some (some 0) ∧ lastFor (2 : Int) [((1 : Int), (5 : Int)), (1, 6)] = none ∧
      m.len = 2 ∧ distinctKeys [((1 : Int), (5 : Int)), (1, 6)] = 1 := by
  refine ⟨⟨[0, 6, 0, 0], 0, 2⟩, ?_⟩; decide

/-! ## C42 -/

/-- **C42**: for every divisor and dividend of 64 bits, the precomputed division is exact and no
step of it overflows (an overflow would be `none`). -/
theorem C42_exact (d n : Nat) (h0 : d ≠ 0) (hd : d < 2 ^ 64) (hn : n < 2 ^ 64) :
    ∃ s, DivU64.new d = some s ∧ s.div n = some (n / d) ∧ s.rem n = some (n % d) := by
  obtain ⟨s, h1, h2, h3⟩ := new_form d h0 (by simpa using hd)
  have hdiv := div_form s h3 n (by simpa using hn)
  rw [h2] at hdiv
  refine ⟨s, h1, hdiv, ?_⟩
  unfold DivU64.rem
  rw [hdiv, h2]
  simp only
  have hle : n / d * d ≤ n := Nat.div_mul_le_self n d
  rw [Nat.mod_eq_of_lt (Nat.lt_of_le_of_lt hle (by simpa using hn))]
  unfold ckSub
  rw [if_pos hle]
  congr 1
  have := Nat.div_add_mod n d
  rw [Nat.mul_comm] at this; omega

/-- A power of two, a plain and a long divisor, at the largest dividend. -/
example : ((DivU64.new 8).bind (·.div 18446744073709551615)) = some 2305843009213693951 ∧
    ((DivU64.new 3).bind (·.div 18446744073709551615)) = some 6148914691236517205 ∧
    ((DivU64.new 7).bind (·.rem 18446744073709551615)) = some 1 := by decide +kernel

end Verif.Props
