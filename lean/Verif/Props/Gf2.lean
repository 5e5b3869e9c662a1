import Verif.Solve.Gf2Space
import Mathlib.Data.List.Perm.Subperm

/-!
# C30: linear systems over GF(2)

`Solution n rows rhs x` (Verif.Solve.Gf2): `x` has `n` entries, and for every equation the number of true variables with a
coefficient is odd exactly if the right-hand side is true.
-/

namespace Verif.Props
open Verif.Solve.Gf2

private theorem mask_eq {n : Nat} (h : n < 64) : coeffMask n = 2 ^ n - 1 := by
  unfold coeffMask shl
  rw [if_neg (by omega), Nat.mod_eq_of_lt h, Nat.one_shiftLeft, Nat.mod_eq_of_lt (Nat.pow_lt_pow_right (by omega) h)]

private theorem augment_bit {n : Nat} (h : n < 64) (p : Nat × Bool) (c : Nat) :
    (augment n p).testBit c = if c < n then p.1.testBit c else if c = n then p.2 else false := by
  unfold augment
  rw [Nat.testBit_or, mask_eq h, Nat.and_two_pow_sub_one_eq_mod, Nat.testBit_mod_two_pow]
  unfold shl
  rw [Nat.mod_eq_of_lt h, Nat.testBit_mod_two_pow, Nat.testBit_shiftLeft]
  by_cases h1 : c < n
  · rw [if_pos h1, decide_eq_true h1, decide_eq_false (show ¬ c ≥ n by omega)]; simp
  · rw [if_neg h1, decide_eq_false h1]
    by_cases h2 : c = n
    · subst h2
      rw [if_pos rfl, decide_eq_true (show c < 64 by omega)]
      cases p.2 <;> simp
    · rw [if_neg h2]
      have : p.2.toNat.testBit (c - n) = false := by
        cases p.2
        · simp
        · have : c - n = (c - n - 1) + 1 := by omega
          rw [this, Nat.testBit_succ]; simp
      rw [this]; simp

private theorem holds_dot (n row : Nat) (b : Bool) (x : List Bool) :
    Holds n row b x ↔ (dot n row (fn x) ^^ b) = false := by
  unfold Holds dot fn
  rw [xsum_countP]
  cases xsum (List.range n) fun c => row.testBit c && x.getD c false <;> cases b <;> simp

/-- The vector with a constant one after the variables. -/
private def ext (n : Nat) (x : List Bool) (c : Nat) : Bool := if c = n then true else fn x c

private theorem solution_zero {n : Nat} (h : n < 64) (rows : List Nat) (rhs : List Bool) (x : List Bool) :
    Solution n rows rhs x ↔ x.length = n ∧ Zero (n + 1) ((rows.zip rhs).map (augment n)) (ext n x) := by
  unfold Solution
  refine and_congr_right fun hx => ?_
  have key : ∀ i (h1 : i < rows.length) (h2 : i < rhs.length),
      dot (n + 1) (at_ ((rows.zip rhs).map (augment n)) i) (ext n x) = (dot n rows[i] (fn x) ^^ rhs[i]) := by
    intro i h1 h2
    have e : at_ ((rows.zip rhs).map (augment n)) i = augment n (rows[i], rhs[i]) := by
      unfold at_
      rw [List.getD_eq_getElem?_getD, List.getElem?_map,
        List.getElem?_eq_getElem (show i < (rows.zip rhs).length by rw [List.length_zip]; omega), List.getElem_zip]
      rfl
    rw [e, dot_succ]
    congr 1
    · refine dot_congr fun c hc => ?_
      rw [augment_bit h, if_pos hc]
      unfold ext
      rw [if_neg (by omega)]
    · rw [augment_bit h, if_neg (by omega), if_pos rfl]
      unfold ext
      rw [if_pos rfl, Bool.and_true]
  have hlen : ((rows.zip rhs).map (augment n)).length = min rows.length rhs.length := by
    rw [List.length_map, List.length_zip]
  constructor
  · intro hs i hi
    rw [hlen] at hi
    rw [key i (by omega) (by omega)]
    exact (holds_dot _ _ _ _).1 (hs i (by omega) (by omega))
  · intro hz i h1 h2
    rw [holds_dot, ← key i h1 h2]
    exact hz i (by rw [hlen]; omega)

private theorem coeff_zero {n : Nat} (h : n < 64) (a : Nat) :
    a &&& coeffMask n = 0 ↔ ∀ c < n, a.testBit c = false := by
  rw [mask_eq h, Nat.and_two_pow_sub_one_eq_mod]
  constructor
  · intro e c hc
    have := Nat.testBit_mod_two_pow a n c
    rw [e, Nat.zero_testBit, decide_eq_true hc, Bool.true_and] at this
    exact this.symm
  · intro hz
    apply Nat.eq_of_testBit_eq
    intro c
    rw [Nat.testBit_mod_two_pow, Nat.zero_testBit]
    by_cases hc : c < n
    · rw [hz c hc, Bool.and_false]
    · rw [decide_eq_false hc, Bool.false_and]

private theorem incons_iff {rows0 : List Nat} {n : Nat} {st : St} (h64 : n < 64) (h : Inv rows0 n st) :
    inconsistent n st.rows = true ↔ ∃ r, st.pivots.length ≤ r ∧ r < st.rows.length ∧ (at_ st.rows r).testBit n = true := by
  have hat : ∀ r (hr : r < st.rows.length), at_ st.rows r = st.rows[r] := by
    intro r hr
    unfold at_; rw [List.getD_eq_getElem?_getD, List.getElem?_eq_getElem hr]; rfl
  have hb : ∀ a, rhsBit n a = a.testBit n := fun a => by unfold rhsBit; rw [Nat.mod_eq_of_lt h64]
  unfold inconsistent
  rw [List.any_eq_true]
  constructor
  · rintro ⟨a, ha, hc⟩
    rw [Bool.and_eq_true, decide_eq_true_eq, coeff_zero h64, hb] at hc
    obtain ⟨r, hr, rfl⟩ := List.mem_iff_getElem.1 ha
    refine ⟨r, ?_, hr, by rw [hat r hr]; exact hc.2⟩
    by_contra hlt
    have hlt' : r < st.pivots.length := by omega
    have h1 := h.piv r hlt' r hr
    rw [hat r hr, hc.1 _ (h.lt _ (List.getElem_mem hlt'))] at h1
    simp at h1
  · rintro ⟨r, h1, h2, h3⟩
    refine ⟨st.rows[r], List.getElem_mem h2, ?_⟩
    rw [Bool.and_eq_true, decide_eq_true_eq, coeff_zero h64, hb, ← hat r h2]
    exact ⟨h.low r h1 h2, h3⟩

private theorem ext_lt {n c : Nat} (x : List Bool) (h : c < n) : ext n x c = fn x c := by
  unfold ext; rw [if_neg (by omega)]

private theorem solution_reduced {n : Nat} (h64 : n < 64) (rows : List Nat) (rhs : List Bool) {st : St}
    (hst : st = reduce n ((rows.zip rhs).map (augment n))) (x : List Bool) :
    Solution n rows rhs x ↔ x ∈ (space n st).enumerate ∧ inconsistent n st.rows = false := by
  have h : Inv ((rows.zip rhs).map (augment n)) n st := hst ▸ inv_reduce _ n
  have hb : ∀ a, rhsBit n a = a.testBit n := fun a => by unfold rhsBit; rw [Nat.mod_eq_of_lt h64]
  rw [solution_zero h64, ← h.sol, zero_reduced_succ h _ (by unfold ext; rw [if_pos rfl]), mem_enumerate h]
  rw [← Bool.not_eq_true, incons_iff h64 h]
  have hsum : ∀ r, (xsum (freeCols n st) fun f => (at_ st.rows r).testBit f && ext n x f) =
      xsum (freeCols n st) fun f => (at_ st.rows r).testBit f && fn x f := fun r =>
    xsum_congr fun f hf => by rw [ext_lt x (mem_free.1 hf).1]
  constructor
  · rintro ⟨h1, h2, h3⟩
    refine ⟨⟨h1, fun r hr => ?_⟩, ?_⟩
    · have := h2 r hr
      rw [ext_lt x (h.lt _ (List.getElem_mem hr)), hsum] at this
      rw [this, hb]
    · rintro ⟨r, a, b, c⟩
      rw [h3 r a b] at c; cases c
  · rintro ⟨⟨h1, h2⟩, h3⟩
    refine ⟨h1, fun r hr => ?_, fun r a b => ?_⟩
    · rw [ext_lt x (h.lt _ (List.getElem_mem hr)), hsum, h2 r hr, hb]
    · by_contra hc
      exact h3 ⟨r, a, b, by simpa using hc⟩

/-- A returned solution space enumerates exactly the solutions, each once, and `count` is their number. -/
theorem C30_solve_some (n : Nat) (rows : List Nat) (rhs : List Bool) (s : Space) (hn : n < 64)
    (h : solve n rows rhs = some s) :
    (∀ x, x ∈ s.enumerate ↔ Solution n rows rhs x) ∧ s.enumerate.Nodup ∧ s.enumerate.length = s.count := by
  unfold solve finish at h
  split at h
  · cases h
  · next hc =>
    cases h
    refine ⟨fun x => ?_, enumerate_nodup, by simp [Space.enumerate, Space.count]⟩
    rw [solution_reduced hn rows rhs rfl]
    exact ⟨fun hx => ⟨hx, by simpa using hc⟩, fun hx => hx.1⟩

/-- "Inconsistent" is reported exactly when there is no solution. -/
theorem C30_solve_none (n : Nat) (rows : List Nat) (rhs : List Bool) (hn : n < 64) :
    solve n rows rhs = none ↔ ¬ ∃ x, Solution n rows rhs x := by
  constructor
  · intro h
    rintro ⟨x, hx⟩
    unfold solve finish at h
    split at h
    · next hc =>
      have := ((solution_reduced hn rows rhs rfl x).1 hx).2
      rw [hc] at this; cases this
    · cases h
  · intro h
    cases e : solve n rows rhs with
    | none => rfl
    | some s =>
      exfalso
      have hs := C30_solve_some n rows rhs s hn e
      have hpos : s.enumerate ≠ [] := by
        intro e0
        have := hs.2.2
        rw [e0] at this
        have hp : 0 < 2 ^ s.kernel.length := Nat.pow_pos (by omega)
        simp only [Space.count, List.length_nil] at this
        omega
      obtain ⟨x, hx⟩ := List.exists_mem_of_ne_nil _ hpos
      exact h ⟨x, (hs.1 x).1 hx⟩

/-- The first solution offered is a solution. -/
theorem C30_particular (n : Nat) (rows : List Nat) (rhs : List Bool) (s : Space) (hn : n < 64)
    (h : solve n rows rhs = some s) : Solution n rows rhs s.particular := by
  rw [← (C30_solve_some n rows rhs s hn h).1]
  unfold Space.enumerate
  refine List.mem_map.2 ⟨0, List.mem_range.2 (Nat.pow_pos (by omega)), ?_⟩
  unfold member
  have : (s.kernel.zipIdx.filter fun p => Nat.testBit 0 p.2) = [] := by
    rw [List.filter_eq_nil_iff]; intro p _; simp
  rw [this]; rfl

private theorem zero_holds (n : Nat) (rows : List Nat) (x : List Bool) :
    Zero n rows (fn x) ↔ ∀ row ∈ rows, Holds n row false x := by
  constructor
  · intro h row hr
    obtain ⟨i, hi, rfl⟩ := List.mem_iff_getElem.1 hr
    have := h i hi
    unfold at_ at this
    rw [List.getD_eq_getElem?_getD, List.getElem?_eq_getElem hi] at this
    rw [holds_dot, Bool.xor_false]; exact this
  · intro h i hi
    have := h rows[i] (List.getElem_mem hi)
    rw [holds_dot, Bool.xor_false] at this
    unfold at_
    rw [List.getD_eq_getElem?_getD, List.getElem?_eq_getElem hi]; exact this

private theorem rank_le {rows0 : List Nat} {n : Nat} {st : St} (h : Inv rows0 n st) : st.pivots.length ≤ n := by
  have : st.pivots ⊆ List.range n := fun p hp => List.mem_range.2 (h.lt p hp)
  have := (h.nodup.subperm this).length_le
  rwa [List.length_range] at this

private theorem full_rank {rows0 : List Nat} {n : Nat} {st : St} (h : Inv rows0 n st) :
    st.pivots.length = n ↔ freeCols n st = [] := by
  constructor
  · intro hl
    have hs : st.pivots ⊆ List.range n := fun p hp => List.mem_range.2 (h.lt p hp)
    have hp : st.pivots.Perm (List.range n) := (h.nodup.subperm hs).perm_of_length_le (by rw [List.length_range]; omega)
    rw [List.eq_nil_iff_forall_not_mem]
    intro c hc
    have := mem_free.1 hc
    exact this.2 (hp.mem_iff.2 (List.mem_range.2 this.1))
  · intro hf
    have hs : List.range n ⊆ st.pivots := by
      intro c hc
      by_contra hp
      have := mem_free.2 ⟨List.mem_range.1 hc, hp⟩
      rw [hf] at this; cases this
    have := (List.nodup_range.subperm hs).length_le
    rw [List.length_range] at this
    have := rank_le h
    omega

private theorem kernel_solves {rows0 : List Nat} {n : Nat} {st : St} (h : Inv rows0 n st) {f : Nat}
    (hf : f ∈ freeCols n st) : Zero n rows0 (fn (kernelVec n st f)) := by
  obtain ⟨h1, h2⟩ := mem_free.1 hf
  rw [← h.sol, zero_reduced h]
  intro r hr
  rw [kernel_pivot h h1 h2 hr, xsum_single free_nodup hf]
  · rw [kernel_free h1 h2]; simp
  · intro g hg hne
    rw [kernel_free h1 (mem_free.1 hg).2, decide_eq_false hne, Bool.and_false]

private theorem trivial_kernel {rows0 : List Nat} {n : Nat} {st : St} (h : Inv rows0 n st) :
    freeCols n st = [] ↔ ∀ x : List Bool, x.length = n → Zero n rows0 (fn x) → x = List.replicate n false := by
  constructor
  · intro hf x hx hz
    refine list_ext hx List.length_replicate fun c hc => ?_
    rw [fn_replicate]
    rw [← h.sol, zero_reduced h] at hz
    have hp : c ∈ st.pivots := by
      by_contra hp
      have := mem_free.2 ⟨hc, hp⟩
      rw [hf] at this; cases this
    obtain ⟨r, hr, rfl⟩ := List.mem_iff_getElem.1 hp
    rw [hz r hr, hf]; rfl
  · intro hx
    rw [List.eq_nil_iff_forall_not_mem]
    intro f hf
    have := hx _ (kernel_length f) (kernel_solves h hf)
    have e := kernel_free (n := n) (st := st) (mem_free.1 hf).1 (mem_free.1 hf).2 (c := f)
    rw [this, fn_replicate] at e
    simp at e

/-- `is_invertible_gf2` accepts exactly the matrices whose columns are independent: only the zero vector is mapped to
zero. -/
theorem C30_invertible (n : Nat) (rows : List Nat) : isInvertible n rows = true ↔
    ∀ x : List Bool, x.length = n → (∀ row ∈ rows, Holds n row false x) → x = List.replicate n false := by
  unfold isInvertible
  rw [decide_eq_true_eq, full_rank (inv_reduce rows n), trivial_kernel (inv_reduce rows n)]
  simp only [zero_holds]

/-- And among square matrices exactly those for which every right-hand side has exactly one solution. -/
theorem C30_unique (n : Nat) (rows : List Nat) (hn : n < 64) (hl : rows.length = n) : isInvertible n rows = true ↔
    ∀ rhs : List Bool, rhs.length = n → ∃ x, Solution n rows rhs x ∧ ∀ y, Solution n rows rhs y → y = x := by
  rw [C30_invertible]
  have hzero : ∀ x : List Bool, x.length = n →
      ((∀ row ∈ rows, Holds n row false x) ↔ Solution n rows (List.replicate n false) x) := by
    intro x hx
    unfold Solution
    constructor
    · intro h
      refine ⟨hx, fun i h1 h2 => ?_⟩
      rw [List.getElem_replicate]; exact h _ (List.getElem_mem h1)
    · rintro ⟨_, h⟩ row hr
      obtain ⟨i, hi, rfl⟩ := List.mem_iff_getElem.1 hr
      have := h i hi (by rw [List.length_replicate]; omega)
      rwa [List.getElem_replicate] at this
  constructor
  · intro h rhs hr
    let aug := (rows.zip rhs).map (augment n)
    have hinv : Inv aug n (reduce n aug) := inv_reduce aug n
    have hdot : ∀ x : List Bool, Zero n aug (fn x) ↔ Zero n rows (fn x) := by
      have hal : aug.length = n := by
        show ((rows.zip rhs).map (augment n)).length = n
        rw [List.length_map, List.length_zip]; omega
      have key : ∀ x : List Bool, ∀ i < n, dot n (at_ aug i) (fn x) = dot n (at_ rows i) (fn x) := by
        intro x i hi
        refine dot_congr fun c hc => ?_
        have e : at_ aug i = augment n (rows[i]'(by omega), rhs[i]'(by omega)) := by
          unfold at_
          show ((rows.zip rhs).map (augment n)).getD i 0 = _
          rw [List.getD_eq_getElem?_getD, List.getElem?_map,
            List.getElem?_eq_getElem (show i < (rows.zip rhs).length by rw [List.length_zip]; omega), List.getElem_zip]
          rfl
        rw [e, augment_bit hn, if_pos hc]
        unfold at_
        rw [List.getD_eq_getElem?_getD, List.getElem?_eq_getElem (by omega : i < rows.length)]
        rfl
      intro x
      unfold Verif.Solve.Gf2.Zero
      rw [hal, hl]
      exact ⟨fun h i hi => by rw [← key x i hi]; exact h i hi, fun h i hi => by rw [key x i hi]; exact h i hi⟩
    have hfree : freeCols n (reduce n aug) = [] := by
      rw [trivial_kernel hinv]
      intro x hx hz
      exact h x hx ((zero_holds n rows x).1 ((hdot x).1 hz))
    have hrank : (reduce n aug).pivots.length = n := (full_rank hinv).2 hfree
    have hcons : inconsistent n (reduce n aug).rows = false := by
      rw [← Bool.not_eq_true, incons_iff hn hinv]
      rintro ⟨r, h1, h2, _⟩
      rw [hinv.len] at h2
      have : aug.length = n := by
        show ((rows.zip rhs).map (augment n)).length = n
        rw [List.length_map, List.length_zip]; omega
      omega
    have henum : (space n (reduce n aug)).enumerate = [member (space n (reduce n aug)) 0] := by
      unfold Space.enumerate
      have : (space n (reduce n aug)).kernel.length = 0 := by rw [space_kernel_length, hfree]; rfl
      rw [this]; rfl
    refine ⟨member (space n (reduce n aug)) 0, ?_, ?_⟩
    · rw [solution_reduced hn rows rhs rfl]
      exact ⟨by show _ ∈ (space n (reduce n aug)).enumerate; rw [henum]; simp, hcons⟩
    · intro y hy
      have := ((solution_reduced hn rows rhs rfl y).1 hy).1
      change y ∈ (space n (reduce n aug)).enumerate at this
      rw [henum] at this
      simpa using this
  · intro h x hx hz
    obtain ⟨x0, _, hu⟩ := h (List.replicate n false) List.length_replicate
    rw [hu x ((hzero x hx).1 hz)]
    refine (hu _ ((hzero _ List.length_replicate).1 ?_)).symm
    intro row _
    rw [holds_dot, Bool.xor_false]
    exact xsum_zero fun c _ => by rw [fn_replicate, Bool.and_false]

/-- With all 64 columns in use the right-hand side has no bit left: the shift wraps to column 0 in a release build (and
panics in a debug build), and the system `x₀ = 0` is answered with `x₀ = 1`. -/
theorem C30_64_columns_fails : ∃ s, solve 64 [1] [false] = some s ∧ ¬ Solution 64 [1] [false] s.particular := by
  refine ⟨space 64 (reduce 64 (([1].zip [false]).map (augment 64))), by decide +kernel, ?_⟩
  rintro ⟨_, h⟩
  have := h 0 (by decide) (by decide)
  revert this
  unfold Holds
  decide +kernel

example : solve 3 [0b011, 0b110] [true, false] = some ⟨3, [true, false, false], [[true, true, true]]⟩ ∧
    solve 3 [0b011, 0b011] [true, false] = none ∧ isInvertible 3 [0b011, 0b110, 0b111] = true ∧
    isInvertible 3 [0b011, 0b110, 0b101] = false := by decide +kernel

end Verif.Props
