import Verif.Net.Fec
import Verif.Net.GfField
import Mathlib.Algebra.BigOperators.Ring.Finset
import Mathlib.Algebra.BigOperators.Fin
import Mathlib.LinearAlgebra.Vandermonde
import Mathlib.LinearAlgebra.Matrix.NonsingularInverse
import Mathlib.LinearAlgebra.Matrix.ToLinearEquiv
/-! # Gauss-Jordan elimination inverts -/
namespace Verif.Net
open Finset

theorem xorSum_eq (n : Nat) (f : Nat → Byte) : xorSum n f = ∑ t ∈ range n, f t := by
  unfold xorSum
  induction n with
  | zero => rfl
  | succ n ih => rw [List.range_succ, List.foldl_append, ih, Finset.sum_range_succ]; rfl

/-- `a` has `r` rows of `c` entries. -/
def Shape (a : List (List Byte)) (r c : Nat) : Prop := a.length = r ∧ ∀ row ∈ a, row.length = c

theorem Shape.row {a r c} (h : Shape a r c) {i : Nat} (hi : i < r) : (a.getD i []).length = c := by
  have : i < a.length := by rw [h.1]; exact hi
  rw [List.getD_eq_getElem?_getD, List.getElem?_eq_getElem this]
  exact h.2 _ (List.getElem_mem _)

theorem shape_of_rows {a r c} (h : a.length = r) (hr : ∀ i < r, (a.getD i []).length = c) : Shape a r c := by
  refine ⟨h, fun row hrow => ?_⟩
  obtain ⟨i, hi, rfl⟩ := List.getElem_of_mem hrow
  have := hr i (by omega)
  rwa [List.getD_eq_getElem?_getD, List.getElem?_eq_getElem hi] at this

theorem getD_set (a : List (List Byte)) (i j : Nat) (x : List Byte) (hi : i < a.length) :
    (a.set i x).getD j [] = if j = i then x else a.getD j [] := by
  simp only [List.getD_eq_getElem?_getD, List.getElem?_set]
  split
  · rename_i h; subst h; simp [hi]
  · rename_i h; rw [if_neg (fun hc => h hc.symm)]

theorem getD_mapIdx (a : List (List Byte)) (f : Nat → List Byte → List Byte) (i : Nat) (hi : i < a.length) :
    (a.mapIdx f).getD i [] = f i (a.getD i []) := by
  simp [List.getD_eq_getElem?_getD, List.getElem?_mapIdx, List.getElem?_eq_getElem hi]

theorem rget_map (f : Byte → Byte) (l : List Byte) (j : Nat) (hj : j < l.length) :
    rget (l.map f) j = f (rget l j) := by
  simp [rget, List.getD_eq_getElem?_getD, List.getElem?_eq_getElem hj]

theorem rget_zipWith (f : Byte → Byte → Byte) (l m : List Byte) (j : Nat) (hj : j < l.length)
    (hm : j < m.length) : rget (List.zipWith f l m) j = f (rget l j) (rget m j) := by
  simp [rget, List.getD_eq_getElem?_getD, List.getElem?_zipWith, List.getElem?_eq_getElem hj,
    List.getElem?_eq_getElem hm]

theorem rget_mapRange (f : Nat → Byte) (n j : Nat) (hj : j < n) : rget ((List.range n).map f) j = f j := by
  simp [rget, List.getD_eq_getElem?_getD, List.getElem?_range hj]

theorem mget_mapRange (f : Nat → List Byte) (n i j : Nat) (hi : i < n) :
    mget ((List.range n).map f) i j = rget (f i) j := by
  simp [mget, List.getD_eq_getElem?_getD, List.getElem?_range hi]

/-! ### The row operations -/

theorem augment_shape {m k} (h : Shape m k k) : Shape (augment m) k (2 * k) := by
  apply shape_of_rows
  · simp [augment, h.1]
  · intro i hi
    unfold augment
    rw [getD_mapIdx _ _ _ (by rw [h.1]; exact hi), List.length_append, h.row hi]
    simp [h.1]; omega

theorem augment_left {m k} (h : Shape m k k) (i j : Nat) (hi : i < k) (hj : j < k) :
    mget (augment m) i j = mget m i j := by
  have hl := h.row hi
  unfold mget augment
  rw [getD_mapIdx _ _ _ (by rw [h.1]; exact hi)]
  unfold rget
  rw [List.getD_append _ _ _ _ (by omega)]

theorem augment_right {m k} (h : Shape m k k) (i j : Nat) (hi : i < k) (hj : j < k) :
    mget (augment m) i (k + j) = if i = j then 1 else 0 := by
  have hl := h.row hi
  unfold mget augment
  rw [getD_mapIdx _ _ _ (by rw [h.1]; exact hi)]
  unfold rget
  rw [List.getD_append_right _ _ _ _ (by omega), hl, Nat.add_sub_cancel_left, h.1]
  exact rget_mapRange _ k j hj

theorem swap_shape {a k c} (h : Shape a k c) {i j : Nat} (hi : i < k) (hj : j < k) :
    Shape (swapRows a i j) k c := by
  apply shape_of_rows
  · simp [swapRows, h.1]
  · intro r hr
    unfold swapRows
    rw [getD_set _ _ _ _ (by simp [h.1, hj]), getD_set _ _ _ _ (by simp [h.1, hi])]
    split
    · exact h.row hi
    · split
      · exact h.row hj
      · exact h.row hr

/-- The row that ends at `r`. -/
def swapIx (i j r : Nat) : Nat := if r = j then i else if r = i then j else r

theorem swap_get {a k c} (h : Shape a k c) {i j : Nat} (hi : i < k) (hj : j < k) (r t : Nat) :
    mget (swapRows a i j) r t = mget a (swapIx i j r) t := by
  unfold swapRows mget swapIx
  rw [getD_set _ _ _ _ (by simp [h.1, hj]), getD_set _ _ _ _ (by simp [h.1, hi])]
  split
  · rfl
  · split <;> rfl

theorem swapIx_lt {i j r k : Nat} (hi : i < k) (hj : j < k) (hr : r < k) : swapIx i j r < k := by
  unfold swapIx; split
  · exact hi
  · split <;> assumption

theorem swapIx_swapIx (i j r : Nat) : swapIx i j (swapIx i j r) = r := by
  unfold swapIx; split_ifs <;> omega

theorem scale_shape {a k c} (h : Shape a k c) {col : Nat} (hc : col < k) : Shape (scaleRow a col) k c := by
  apply shape_of_rows
  · simp [scaleRow, h.1]
  · intro r hr
    unfold scaleRow
    simp only []
    rw [getD_set _ _ _ _ (by rw [h.1]; exact hc)]
    split
    · rw [List.length_map]; exact h.row hc
    · exact h.row hr

theorem scale_get {a k c} (h : Shape a k c) {col : Nat} (hc : col < k) (hp : mget a col col ≠ 0)
    (r t : Nat) (ht : t < c) :
    mget (scaleRow a col) r t = if r = col then mget a col t * (mget a col col)⁻¹ else mget a r t := by
  unfold scaleRow
  simp only []
  rw [one_eq, gdiv_eq _ hp]
  conv_lhs => unfold mget
  rw [getD_set _ _ _ _ (by rw [h.1]; exact hc)]
  split
  · rw [rget_map _ _ _ (by rw [h.row hc]; exact ht)]; rfl
  · rfl

theorem clear_shape {a k c} (h : Shape a k c) {col : Nat} (hc : col < k) : Shape (clearCol a col) k c := by
  apply shape_of_rows
  · simp [clearCol, h.1]
  · intro r hr
    unfold clearCol
    simp only []
    rw [getD_mapIdx _ _ _ (by rw [h.1]; exact hr)]
    split
    · exact h.row hr
    · split
      · exact h.row hr
      · rw [List.length_zipWith, h.row hr, h.row hc, Nat.min_self]

theorem clear_get {a k c} (h : Shape a k c) {col : Nat} (hc : col < k) (r t : Nat) (hr : r < k) (ht : t < c) :
    mget (clearCol a col) r t =
      if r = col then mget a r t else mget a r t + mget a r col * mget a col t := by
  unfold clearCol
  simp only []
  conv_lhs => unfold mget
  rw [getD_mapIdx _ _ _ (by rw [h.1]; exact hr)]
  split
  · rfl
  · split
    · rename_i hf
      have : mget a r col = 0 := hf
      rw [this, zero_mul, add_zero]; rfl
    · rw [rget_zipWith _ _ _ _ (by rw [h.row hr]; exact ht) (by rw [h.row hc]; exact ht)]
      rfl

/-! ### The pivot search -/

theorem findPivot_spec (a : List (List Byte)) (col : Nat) : ∀ left piv,
    piv ≤ findPivot a col left piv ∧ findPivot a col left piv ≤ piv + left ∧
    (∀ r, piv ≤ r → r < findPivot a col left piv → mget a r col = 0) ∧
    (findPivot a col left piv < piv + left → mget a (findPivot a col left piv) col ≠ 0) := by
  intro left
  induction left with
  | zero => intro piv; simp only [findPivot]; exact ⟨le_refl _, le_refl _, by intros; omega, by omega⟩
  | succ left ih =>
    intro piv
    rw [findPivot]
    split
    · rename_i h
      obtain ⟨h1, h2, h3, h4⟩ := ih (piv + 1)
      refine ⟨by omega, by omega, fun r hr1 hr2 => ?_, fun hlt => h4 (by omega)⟩
      by_cases hr : r = piv
      · subst hr; exact h
      · exact h3 r (by omega) hr2
    · rename_i h
      exact ⟨le_refl _, by omega, by intros; omega, fun _ => h⟩

/-! ### The invariant -/

/-- The invariant before round `col` of inverting `m`. -/
structure GJ (m : Nat → Nat → Byte) (k col : Nat) (a : List (List Byte)) : Prop where
  shape : Shape a k (2 * k)
  rel : ∀ r < k, ∀ j < k, mget a r j = ∑ t ∈ range k, mget a r (k + t) * m t j
  ker : ∀ v : Nat → Byte, (∀ r < k, ∑ j ∈ range k, mget a r j * v j = 0) →
    ∀ r < k, ∑ j ∈ range k, m r j * v j = 0
  unit : ∀ r < k, ∀ j < col, mget a r j = if r = j then 1 else 0

theorem gj_init {m k} (h : Shape m k k) : GJ (mget m) k 0 (augment m) := by
  refine ⟨augment_shape h, fun r hr j hj => ?_, fun v hv r hr => ?_, fun _ _ j hj => by omega⟩
  · rw [augment_left h r j hr hj]
    have : ∑ t ∈ range k, mget (augment m) r (k + t) * mget m t j
        = ∑ t ∈ range k, if r = t then mget m t j else 0 := by
      apply Finset.sum_congr rfl
      intro t ht
      rw [augment_right h r t hr (by simpa using ht)]
      split <;> simp
    rw [this, Finset.sum_ite_eq, if_pos (by simpa using hr)]
  · have := hv r hr
    rw [← this]
    apply Finset.sum_congr rfl
    intro j hj
    rw [augment_left h r j hr (by simpa using hj)]

theorem gj_swap {m k col a} (h : GJ m k col a) {i j : Nat} (hi : i < k) (hj : j < k) (hci : col ≤ i) (hcj : col ≤ j) :
    GJ m k col (swapRows a i j) := by
  refine ⟨swap_shape h.shape hi hj, fun r hr t ht => ?_, fun v hv => h.ker v fun r hr => ?_, fun r hr t ht => ?_⟩
  · simp only [swap_get h.shape hi hj]
    exact h.rel _ (swapIx_lt hi hj hr) t ht
  · have := hv _ (swapIx_lt hi hj hr)
    simpa only [swap_get h.shape hi hj, swapIx_swapIx] using this
  · rw [swap_get h.shape hi hj, h.unit _ (swapIx_lt hi hj hr) t ht]
    unfold swapIx
    congr 1
    apply propext
    split_ifs <;> omega

theorem gj_scale {m k col a} (h : GJ m k col a) (hc : col < k) (hp : mget a col col ≠ 0) :
    GJ m k col (scaleRow a col) := by
  refine ⟨scale_shape h.shape hc, fun r hr t ht => ?_, fun v hv => h.ker v fun r hr => ?_, fun r hr t ht => ?_⟩
  · have e : ∀ s ∈ range k, mget (scaleRow a col) r (k + s) * m s t =
        if r = col then (mget a col (k + s) * m s t) * (mget a col col)⁻¹ else mget a r (k + s) * m s t := by
      intro s hs
      have : s < k := by simpa using hs
      rw [scale_get h.shape hc hp r _ (by omega)]
      split
      · ring
      · rfl
    rw [Finset.sum_congr rfl e, scale_get h.shape hc hp r t (by omega)]
    split
    · rw [← Finset.sum_mul, ← h.rel col hc t ht]
    · exact h.rel r hr t ht
  · have := hv r hr
    have e : ∀ s ∈ range k, mget (scaleRow a col) r s * v s =
        if r = col then (mget a col s * v s) * (mget a col col)⁻¹ else mget a r s * v s := by
      intro s hs
      have : s < k := by simpa using hs
      rw [scale_get h.shape hc hp r _ (by omega)]
      split
      · ring
      · rfl
    rw [Finset.sum_congr rfl e] at this
    split at this
    · rename_i hr; subst hr
      rw [← Finset.sum_mul] at this
      exact (mul_eq_zero.mp this).resolve_right (inv_ne_zero hp)
    · exact this
  · rw [scale_get h.shape hc hp r t (by omega)]
    split
    · rename_i hr; subst hr
      rw [h.unit r hc t ht, if_neg (by omega), zero_mul]
    · exact h.unit r hr t ht

theorem gj_clear {m k col a} (h : GJ m k col a) (hc : col < k) (hp : mget a col col = 1) :
    GJ m k (col + 1) (clearCol a col) := by
  refine ⟨clear_shape h.shape hc, fun r hr t ht => ?_, fun v hv => h.ker v fun r hr => ?_, fun r hr t ht => ?_⟩
  · have e : ∀ s ∈ range k, mget (clearCol a col) r (k + s) * m s t =
        if r = col then mget a r (k + s) * m s t
        else mget a r (k + s) * m s t + mget a r col * (mget a col (k + s) * m s t) := by
      intro s hs
      have : s < k := by simpa using hs
      rw [clear_get h.shape hc r _ hr (by omega)]
      split
      · rfl
      · ring
    rw [Finset.sum_congr rfl e, clear_get h.shape hc r t hr (by omega)]
    split
    · exact h.rel r hr t ht
    · rw [Finset.sum_add_distrib, ← Finset.mul_sum, ← h.rel r hr t ht, ← h.rel col hc t ht]
  · have e : ∀ r < k, ∀ s ∈ range k, mget (clearCol a col) r s * v s =
        if r = col then mget a r s * v s
        else mget a r s * v s + mget a r col * (mget a col s * v s) := by
      intro r hr s hs
      have : s < k := by simpa using hs
      rw [clear_get h.shape hc r _ hr (by omega)]
      split
      · rfl
      · ring
    have hcol := hv col hc
    rw [Finset.sum_congr rfl (e col hc)] at hcol
    simp only [if_true] at hcol
    have hrow := hv r hr
    rw [Finset.sum_congr rfl (e r hr)] at hrow
    split at hrow
    · exact hrow
    · rw [Finset.sum_add_distrib, ← Finset.mul_sum, hcol, mul_zero, add_zero] at hrow
      exact hrow
  · rw [clear_get h.shape hc r t hr (by omega)]
    by_cases htc : t = col
    · subst htc
      split
      · rename_i hr; subst hr; rw [hp]
      · rw [hp, mul_one, add_self_byte]
    · rw [h.unit r hr t (by omega), h.unit col hc t (by omega), if_neg (show ¬ col = t from fun hc => htc hc.symm),
        mul_zero, add_zero]
      split <;> rfl

theorem gj_step {m k col a a'} (h : GJ m k col a) (hc : col < k) (hs : gjStep k a col = some a') :
    GJ m k (col + 1) a' := by
  unfold gjStep at hs
  simp only [] at hs
  obtain ⟨h1, h2, -, h4⟩ := findPivot_spec a col (k - col) col
  split at hs
  · cases hs
  · rename_i hne
    have hpk : findPivot a col (k - col) col < k := by omega
    simp only [Option.some.injEq] at hs
    subst hs
    have hsw := gj_swap h hc hpk (le_refl _) h1
    have hpv : mget (swapRows a col (findPivot a col (k - col) col)) col col ≠ 0 := by
      rw [swap_get h.shape hc hpk]
      have hix : swapIx col (findPivot a col (k - col) col) col = findPivot a col (k - col) col := by
        unfold swapIx; split_ifs <;> omega
      rw [hix]
      exact h4 (by omega)
    apply gj_clear (gj_scale hsw hc hpv) hc
    rw [scale_get hsw.shape hc hpv col col (by omega), if_pos rfl, mul_inv_cancel₀ hpv]

theorem gj_singular {m k col a} (h : GJ m k col a) (hc : col < k) (hs : gjStep k a col = none) :
    ∃ v : Nat → Byte, v col = 1 ∧ ∀ r < k, ∑ j ∈ range k, m r j * v j = 0 := by
  unfold gjStep at hs
  simp only [] at hs
  obtain ⟨h1, h2, h3, h4⟩ := findPivot_spec a col (k - col) col
  split at hs
  swap
  · cases hs
  rename_i hk
  rw [hk] at h3
  refine ⟨fun j => if j < col then mget a j col else if j = col then 1 else 0, by simp, h.ker _ fun r hr => ?_⟩
  have e : ∀ j ∈ range k, mget a r j * (if j < col then mget a j col else if j = col then 1 else 0) =
      (if r = j then (if j < col then mget a j col else 0) else 0) + (if col = j then mget a r j else 0) := by
    intro j hj
    by_cases h1 : j < col
    · rw [if_pos h1, h.unit r hr j h1, if_neg (show ¬ col = j by omega), if_pos h1]
      split <;> simp
    · rw [if_neg h1, if_neg h1]
      by_cases h2 : j = col
      · subst h2; simp
      · rw [if_neg h2, if_neg (show ¬ col = j from fun hc => h2 hc.symm)]; simp
  rw [Finset.sum_congr rfl e, Finset.sum_add_distrib, Finset.sum_ite_eq, Finset.sum_ite_eq,
    if_pos (Finset.mem_range.mpr hr), if_pos (Finset.mem_range.mpr hc)]
  split
  · exact add_self_byte _
  · rw [h3 r (by omega) hr, add_zero]

theorem gj_loop {m k} : ∀ n col a, col + n = k → GJ m k col a →
    (∀ a', gjLoop k n col a = some a' → GJ m k k a') ∧
    (gjLoop k n col a = none → ∃ j < k, ∃ v : Nat → Byte, v j = 1 ∧ ∀ r < k, ∑ j ∈ range k, m r j * v j = 0) := by
  intro n
  induction n with
  | zero =>
    intro col a hk h
    simp only [gjLoop]
    refine ⟨fun a' ha => ?_, fun hc => (by cases hc)⟩
    simp only [Option.some.injEq] at ha
    subst ha
    rw [Nat.add_zero] at hk; subst hk; exact h
  | succ n ih =>
    intro col a hk h
    simp only [gjLoop]
    cases hs : gjStep k a col with
    | none =>
      refine ⟨fun a' ha => (by cases ha), fun _ => ?_⟩
      obtain ⟨v, h1, h2⟩ := gj_singular h (by omega) hs
      exact ⟨col, by omega, v, h1, h2⟩
    | some a1 => exact ih (col + 1) a1 (by omega) (gj_step h (by omega) hs)

/-- What `invert` returns is a left inverse. -/
theorem invert_some {m k inv} (h : Shape m k k) (hi : invert m = some inv) :
    Shape inv k k ∧ ∀ r < k, ∀ j < k, ∑ t ∈ range k, mget inv r t * mget m t j = if r = j then 1 else 0 := by
  unfold invert at hi
  rw [h.1] at hi
  split at hi
  · cases hi
  rename_i a ha
  simp only [Option.some.injEq] at hi
  have hg := (gj_loop k 0 (augment m) (by omega) (gj_init h)).1 a ha
  subst hi
  constructor
  · refine ⟨by simp [hg.shape.1], ?_⟩
    intro row hrow
    obtain ⟨r, hr, rfl⟩ := List.mem_map.mp hrow
    have := hg.shape.2 r hr
    simp; omega
  · intro r hr j hj
    rw [← hg.unit r hr j hj, hg.rel r hr j hj]
    apply Finset.sum_congr rfl
    intro t ht
    have htk : t < k := by simpa using ht
    congr 1
    have hra : r < a.length := by rw [hg.shape.1]; exact hr
    simp only [mget, rget, List.getD_eq_getElem?_getD, List.getElem?_map, List.getElem?_eq_getElem hra,
      Option.map_some, Option.getD_some, List.getElem?_take, List.getElem?_drop, if_pos htk]

/-- `invert` refuses only matrices with a kernel. -/
theorem invert_none {m k} (h : Shape m k k) (hi : invert m = none) :
    ∃ j < k, ∃ v : Nat → Byte, v j = 1 ∧ ∀ r < k, ∑ j ∈ range k, mget m r j * v j = 0 := by
  unfold invert at hi
  rw [h.1] at hi
  split at hi
  · rename_i ha
    exact (gj_loop k 0 (augment m) (by omega) (gj_init h)).2 ha
  · cases hi

/-! ### As matrices -/

/-- The `k × k` matrix of the entries. -/
def toM (k : Nat) (f : Nat → Nat → Byte) : Matrix (Fin k) (Fin k) Byte := fun i j => f i j

theorem toM_mul_one {k : Nat} {f g : Nat → Nat → Byte}
    (h : ∀ r < k, ∀ j < k, ∑ t ∈ range k, f r t * g t j = if r = j then 1 else 0) :
    toM k f * toM k g = 1 := by
  ext i j
  rw [Matrix.mul_apply]
  have := h i i.isLt j j.isLt
  rw [Finset.sum_range] at this
  simp only [toM]
  rw [this, Matrix.one_apply]
  simp [Fin.ext_iff]

/-- An invertible matrix is inverted. -/
theorem invert_of_det {m k} (h : Shape m k k) (hd : IsUnit (toM k (mget m))) :
    ∃ inv, invert m = some inv ∧ Shape inv k k ∧ toM k (mget inv) * toM k (mget m) = 1 := by
  cases hi : invert m with
  | some inv =>
    obtain ⟨h1, h2⟩ := invert_some h hi
    exact ⟨inv, rfl, h1, toM_mul_one h2⟩
  | none =>
    exfalso
    obtain ⟨j, hj, v, hv, hk⟩ := invert_none h hi
    have hmv : (toM k (mget m)).mulVec (fun i : Fin k => v i) = 0 := by
      ext r
      have := hk r r.isLt
      rw [Finset.sum_range] at this
      exact this
    have hinj := Matrix.mulVec_injective_iff_isUnit.mpr hd
    have : (fun i : Fin k => v i) = 0 := hinj (by rw [hmv, Matrix.mulVec_zero])
    have := congrFun this ⟨j, hj⟩
    simp only [Pi.zero_apply] at this
    rw [hv] at this
    exact one_ne_zero this

end Verif.Net
