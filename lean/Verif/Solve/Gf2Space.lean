import Verif.Solve.Gf2Lemmas
/-!
# The solution space computed from a reduced system
-/

namespace Verif.Solve.Gf2

/-- A list as a function. -/
def fn (x : List Bool) (c : Nat) : Bool := x.getD c false

section reduced
variable {rows0 : List Nat} {n : Nat} {st : St}

theorem mem_free {c : Nat} : c ∈ freeCols n st ↔ c < n ∧ c ∉ st.pivots := by
  simp [freeCols]

theorem free_nodup : (freeCols n st).Nodup := List.nodup_range.filter _

theorem dot_pivot (h : Inv rows0 n st) {r : Nat} (hr : r < st.pivots.length) (x : Nat → Bool) :
    dot n (at_ st.rows r) x =
      (x st.pivots[r] ^^ xsum (freeCols n st) fun f => (at_ st.rows r).testBit f && x f) := by
  have hrl : r < st.rows.length := Nat.lt_of_lt_of_le hr h.rank
  unfold dot
  rw [xsum_filter _ (fun c => st.pivots.contains c)]
  congr 1
  have hm : st.pivots[r] ∈ st.pivots := List.getElem_mem hr
  rw [xsum_single (a := st.pivots[r]) (List.nodup_range.filter _)]
  · rw [h.piv r hr r hrl]; simp
  · rw [List.mem_filter, List.mem_range]
    exact ⟨h.lt _ hm, by simp⟩
  · intro c hc hne
    rw [List.mem_filter] at hc
    have hc2 : c ∈ st.pivots := by simpa using hc.2
    obtain ⟨i, hi, rfl⟩ := List.mem_iff_getElem.1 hc2
    rw [h.piv i hi r hrl, decide_eq_false, Bool.false_and]
    rintro rfl
    exact hne rfl

theorem dot_low (h : Inv rows0 n st) {r : Nat} (hr : st.pivots.length ≤ r) (hl : r < st.rows.length)
    (x : Nat → Bool) : dot n (at_ st.rows r) x = false :=
  xsum_zero fun c hc => by rw [h.low r hr hl c (List.mem_range.1 hc), Bool.false_and]

/-- The reduced system with right-hand sides `b`: pivot variables are determined by the free ones. -/
theorem zero_reduced (h : Inv rows0 n st) (x : Nat → Bool) :
    Zero n st.rows x ↔ ∀ r (hr : r < st.pivots.length),
      x st.pivots[r] = xsum (freeCols n st) fun f => (at_ st.rows r).testBit f && x f := by
  constructor
  · intro hz r hr
    have := hz r (Nat.lt_of_lt_of_le hr h.rank)
    rw [dot_pivot h hr] at this
    simpa using this
  · intro hz r hl
    by_cases hr : r < st.pivots.length
    · rw [dot_pivot h hr, hz r hr, Bool.xor_self]
    · exact dot_low h (by omega) hl x

theorem zero_reduced_succ (h : Inv rows0 n st) (x : Nat → Bool) (hx : x n = true) :
    Zero (n + 1) st.rows x ↔ (∀ r (hr : r < st.pivots.length),
      x st.pivots[r] = ((at_ st.rows r).testBit n ^^
        xsum (freeCols n st) fun f => (at_ st.rows r).testBit f && x f)) ∧
      ∀ r, st.pivots.length ≤ r → r < st.rows.length → (at_ st.rows r).testBit n = false := by
  constructor
  · intro hz
    refine ⟨fun r hr => ?_, fun r hr hl => ?_⟩
    · have := hz r (Nat.lt_of_lt_of_le hr h.rank)
      rw [dot_succ, dot_pivot h hr, hx, Bool.and_true] at this
      revert this
      generalize x st.pivots[r] = a
      generalize (at_ st.rows r).testBit n = b
      generalize xsum _ _ = d
      cases a <;> cases b <;> cases d <;> simp
    · have := hz r hl
      rw [dot_succ, dot_low h hr hl, hx, Bool.and_true, Bool.false_xor] at this
      exact this
  · rintro ⟨h1, h2⟩ r hl
    by_cases hr : r < st.pivots.length
    · rw [dot_succ, dot_pivot h hr, h1 r hr, hx, Bool.and_true]
      generalize (at_ st.rows r).testBit n = b
      generalize xsum _ _ = d
      cases b <;> cases d <;> rfl
    · rw [dot_succ, dot_low h (by omega) hl, hx, h2 r (by omega) hl]; rfl

/-! ### Building vectors -/

theorem put_length (l : List (Nat × Bool)) (xs : List Bool) : (l.foldl put xs).length = xs.length := by
  induction l generalizing xs with
  | nil => rfl
  | cons p l ih => rw [List.foldl_cons, ih, put, List.length_set]

theorem put_other {l : List (Nat × Bool)} {xs : List Bool} {c : Nat} (h : ∀ p ∈ l, p.1 ≠ c) :
    fn (l.foldl put xs) c = fn xs c := by
  induction l generalizing xs with
  | nil => rfl
  | cons p l ih =>
    rw [List.foldl_cons, ih fun q hq => h q (by simp [hq])]
    unfold fn put
    rw [List.getD_eq_getElem?_getD, List.getElem?_set_ne (h p (by simp)), List.getD_eq_getElem?_getD]

theorem put_mem {l : List (Nat × Bool)} {xs : List Bool} {c : Nat} {b : Bool} (hn : (l.map (·.1)).Nodup)
    (h : (c, b) ∈ l) (hc : c < xs.length) : fn (l.foldl put xs) c = b := by
  induction l generalizing xs with
  | nil => cases h
  | cons p l ih =>
    rw [List.map_cons, List.nodup_cons] at hn
    rw [List.foldl_cons]
    rcases List.mem_cons.1 h with h | h
    · subst h
      rw [put_other]
      · unfold fn put
        rw [List.getD_eq_getElem?_getD, List.getElem?_set_self hc]; rfl
      · intro q hq e
        exact hn.1 (List.mem_map.2 ⟨q, hq, e⟩)
    · exact ih hn.2 h (by rw [put, List.length_set]; exact hc)

theorem mapIdx_fst (l : List Nat) (g : Nat → Nat → Bool) :
    (l.mapIdx fun r pc => (pc, g r pc)).map (·.1) = l := by
  apply List.ext_getElem
  · simp
  · intro i h1 h2; simp

theorem mem_mapIdx {l : List Nat} {g : Nat → Nat → Bool} {q : Nat × Bool}
    (h : q ∈ l.mapIdx fun r pc => (pc, g r pc)) : ∃ i, ∃ hi : i < l.length, q = (l[i], g i l[i]) := by
  obtain ⟨i, hi, e⟩ := List.mem_iff_getElem.1 h
  refine ⟨i, by simpa using hi, ?_⟩
  rw [← e, List.getElem_mapIdx]

theorem mapIdx_mem {l : List Nat} {g : Nat → Nat → Bool} {i : Nat} (hi : i < l.length) :
    (l[i], g i l[i]) ∈ l.mapIdx fun r pc => (pc, g r pc) := by
  refine List.mem_iff_getElem.2 ⟨i, by simpa using hi, ?_⟩
  rw [List.getElem_mapIdx]

theorem fn_replicate (n c : Nat) : fn (List.replicate n false) c = false := by
  unfold fn
  rw [List.getD_eq_getElem?_getD, List.getElem?_replicate]
  split <;> rfl

theorem particular_length : (particular n st).length = n := by
  unfold particular; rw [put_length, List.length_replicate]

theorem particular_pivot (h : Inv rows0 n st) {r : Nat} (hr : r < st.pivots.length) :
    fn (particular n st) st.pivots[r] = rhsBit n (at_ st.rows r) := by
  unfold particular
  refine put_mem (by rw [mapIdx_fst st.pivots (fun r _ => rhsBit n (at_ st.rows r))]; exact h.nodup)
    (mapIdx_mem (g := fun r _ => rhsBit n (at_ st.rows r)) hr) ?_
  rw [List.length_replicate]
  exact h.lt _ (List.getElem_mem hr)

theorem particular_free {c : Nat} (hc : c ∉ st.pivots) : fn (particular n st) c = false := by
  unfold particular
  rw [put_other, fn_replicate]
  intro q hq e
  obtain ⟨i, hi, e'⟩ := mem_mapIdx (g := fun r _ => rhsBit n (at_ st.rows r)) hq
  rw [e'] at e
  exact hc (e ▸ List.getElem_mem hi)

theorem kernel_length (f : Nat) : (kernelVec n st f).length = n := by
  unfold kernelVec; rw [put_length, List.length_set, List.length_replicate]

theorem fn_unit {f c : Nat} (hf : f < n) : fn ((List.replicate n false).set f true) c = decide (c = f) := by
  by_cases h : f = c
  · subst h
    unfold fn
    rw [List.getD_eq_getElem?_getD, List.getElem?_set_self (by rw [List.length_replicate]; exact hf)]
    simp
  · have : fn ((List.replicate n false).set f true) c = fn (List.replicate n false) c := by
      unfold fn
      rw [List.getD_eq_getElem?_getD, List.getElem?_set_ne h, List.getD_eq_getElem?_getD]
    rw [this, fn_replicate, decide_eq_false (fun e => h e.symm)]

theorem kernel_free {f c : Nat} (hf : f < n) (hc : c ∉ st.pivots) : fn (kernelVec n st f) c = decide (c = f) := by
  unfold kernelVec
  rw [put_other, fn_unit hf]
  intro q hq e
  obtain ⟨i, hi, e'⟩ := mem_mapIdx (g := fun r _ => (at_ st.rows r).testBit f) (List.mem_filter.1 hq).1
  rw [e'] at e
  exact hc (e ▸ List.getElem_mem hi)

theorem kernel_pivot (h : Inv rows0 n st) {f : Nat} (hf : f < n) (hff : f ∉ st.pivots) {r : Nat}
    (hr : r < st.pivots.length) : fn (kernelVec n st f) st.pivots[r] = (at_ st.rows r).testBit f := by
  unfold kernelVec
  have hm : st.pivots[r] ∈ st.pivots := List.getElem_mem hr
  have hnod : (((st.pivots.mapIdx fun r pc => (pc, (at_ st.rows r).testBit f)).filter (·.2)).map (·.1)).Nodup := by
    refine List.Nodup.sublist (List.Sublist.map _ List.filter_sublist) ?_
    rw [mapIdx_fst st.pivots (fun r _ => (at_ st.rows r).testBit f)]; exact h.nodup
  rcases Bool.eq_false_or_eq_true ((at_ st.rows r).testBit f) with e | e
  · rw [e]
    refine put_mem hnod (List.mem_filter.2 ⟨?_, rfl⟩) ?_
    · have := mapIdx_mem (g := fun r _ => (at_ st.rows r).testBit f) hr
      simp only [e] at this
      exact this
    · rw [List.length_set, List.length_replicate]
      exact h.lt _ hm
  · rw [e, put_other, fn_unit hf, decide_eq_false]
    · rintro e'; exact hff (e' ▸ hm)
    · intro q hq e'
      rw [List.mem_filter] at hq
      obtain ⟨i, hi, e''⟩ := mem_mapIdx (g := fun r _ => (at_ st.rows r).testBit f) hq.1
      rw [e''] at e' hq
      have : i = r := (List.Nodup.getElem_inj_iff h.nodup).1 e'
      subst this
      simp only at hq
      rw [e] at hq
      exact absurd hq.2 (by simp)

/-! ### Members -/

theorem addVec_length (n : Nat) (x k : List Bool) : (addVec n x k).length = n := by simp [addVec]

theorem fn_addVec {n v : Nat} (hv : v < n) (x k : List Bool) : fn (addVec n x k) v = (fn x v ^^ fn k v) := by
  unfold addVec
  show List.getD _ _ _ = _
  rw [List.getD_eq_getElem?_getD, List.getElem?_map, List.getElem?_range hv]
  rfl

theorem foldl_addVec_length (n : Nat) (l : List (List Bool × Nat)) (x : List Bool) (hx : x.length = n) :
    (l.foldl (fun x p => addVec n x p.1) x).length = n := by
  induction l generalizing x with
  | nil => exact hx
  | cons p l ih => rw [List.foldl_cons]; exact ih _ (addVec_length _ _ _)

theorem fn_foldl {n v : Nat} (hv : v < n) (kv : Nat → List Bool) (mask : Nat) : ∀ (fs : List Nat), fs.Nodup →
    ∀ (k : Nat) (x : List Bool),
    fn ((((fs.map kv).zipIdx k).filter fun p => mask.testBit p.2).foldl (fun x p => addVec n x p.1) x) v =
      (fn x v ^^ xsum fs fun f => mask.testBit (k + fs.idxOf f) && fn (kv f) v)
  | [], _, k, x => by simp [xsum]
  | f :: fs, hn, k, x => by
    rw [List.nodup_cons] at hn
    have ih := fn_foldl hv kv mask fs hn.2 (k + 1)
    rw [List.map_cons, List.zipIdx_cons, xsum_cons]
    have hx : (xsum fs fun g => mask.testBit (k + (f :: fs).idxOf g) && fn (kv g) v) =
        xsum fs fun g => mask.testBit (k + 1 + fs.idxOf g) && fn (kv g) v := by
      refine xsum_congr fun g hg => ?_
      have : f ≠ g := fun e => hn.1 (e ▸ hg)
      rw [List.idxOf_cons_ne _ this, show k + (fs.idxOf g).succ = k + 1 + fs.idxOf g by omega]
    have h0 : mask.testBit (k + 0) = mask.testBit k := rfl
    rw [hx, List.idxOf_cons_self, h0]
    rcases Bool.eq_false_or_eq_true (mask.testBit k) with e | e
    · rw [List.filter_cons_of_pos (by simpa using e), List.foldl_cons, ih, fn_addVec hv, e, Bool.true_and,
        Bool.xor_assoc]
    · rw [List.filter_cons_of_neg (by simpa using e), ih, e, Bool.false_and, Bool.false_xor]

theorem member_length (mask : Nat) : (member (space n st) mask).length = n :=
  foldl_addVec_length n _ _ particular_length

theorem fn_member {v : Nat} (hv : v < n) (mask : Nat) :
    fn (member (space n st) mask) v = (fn (particular n st) v ^^
      xsum (freeCols n st) fun f => mask.testBit ((freeCols n st).idxOf f) && fn (kernelVec n st f) v) := by
  have := fn_foldl hv (kernelVec n st) mask (freeCols n st) free_nodup 0 (particular n st)
  simp only [Nat.zero_add] at this
  exact this

theorem member_free {c : Nat} (hc : c ∈ freeCols n st) (mask : Nat) :
    fn (member (space n st) mask) c = mask.testBit ((freeCols n st).idxOf c) := by
  obtain ⟨h1, h2⟩ := mem_free.1 hc
  rw [fn_member h1, particular_free h2, Bool.false_xor, xsum_single free_nodup hc]
  · rw [kernel_free h1 h2]; simp
  · intro f hf hne
    rw [kernel_free (mem_free.1 hf).1 h2, decide_eq_false (fun e => hne e.symm), Bool.and_false]

theorem member_pivot (h : Inv rows0 n st) (mask : Nat) {r : Nat} (hr : r < st.pivots.length) :
    fn (member (space n st) mask) st.pivots[r] = (rhsBit n (at_ st.rows r) ^^
      xsum (freeCols n st) fun f => (at_ st.rows r).testBit f && fn (member (space n st) mask) f) := by
  rw [fn_member (h.lt _ (List.getElem_mem hr)), particular_pivot h hr]
  congr 1
  refine xsum_congr fun f hf => ?_
  obtain ⟨h1, h2⟩ := mem_free.1 hf
  rw [kernel_pivot h h1 h2 hr, member_free hf, Bool.and_comm]

/-- A number with given low bits. -/
def ofBits : List Bool → Nat
  | [] => 0
  | b :: l => b.toNat + 2 * ofBits l

theorem ofBits_lt : ∀ l : List Bool, ofBits l < 2 ^ l.length
  | [] => by simp [ofBits]
  | b :: l => by
    have := ofBits_lt l
    have hb : b.toNat ≤ 1 := Bool.toNat_le b
    rw [ofBits, List.length_cons, Nat.pow_succ]; omega

theorem ofBits_testBit : ∀ (l : List Bool) (i : Nat), (ofBits l).testBit i = l.getD i false
  | [], i => by simp [ofBits]
  | b :: l, 0 => by
    rw [ofBits, Nat.testBit_zero]
    cases b
    · simp
    · simp
  | b :: l, i + 1 => by
    have hb : b.toNat ≤ 1 := Bool.toNat_le b
    rw [ofBits, Nat.testBit_succ, show (b.toNat + 2 * ofBits l) / 2 = ofBits l by omega, ofBits_testBit l i]
    rfl

theorem list_ext {x y : List Bool} (hx : x.length = n) (hy : y.length = n) (h : ∀ c < n, fn x c = fn y c) : x = y := by
  apply List.ext_getElem (by omega)
  intro i h1 h2
  have := h i (by omega)
  unfold fn at this
  rw [List.getD_eq_getElem?_getD, List.getD_eq_getElem?_getD, List.getElem?_eq_getElem h1,
    List.getElem?_eq_getElem h2] at this
  exact this

theorem space_kernel_length : (space n st).kernel.length = (freeCols n st).length := by simp [space]

/-- The members are the vectors that obey the reduced equations. -/
theorem mem_enumerate (h : Inv rows0 n st) (x : List Bool) :
    x ∈ (space n st).enumerate ↔ x.length = n ∧ ∀ r (hr : r < st.pivots.length),
      fn x st.pivots[r] = (rhsBit n (at_ st.rows r) ^^
        xsum (freeCols n st) fun f => (at_ st.rows r).testBit f && fn x f) := by
  unfold Space.enumerate
  rw [List.mem_map]
  constructor
  · rintro ⟨mask, _, rfl⟩
    exact ⟨member_length mask, fun r hr => member_pivot h mask hr⟩
  · rintro ⟨hl, hx⟩
    refine ⟨ofBits ((freeCols n st).map (fn x)), ?_, ?_⟩
    · rw [List.mem_range, space_kernel_length]
      have := ofBits_lt ((freeCols n st).map (fn x))
      rwa [List.length_map] at this
    · have hfree : ∀ c ∈ freeCols n st,
          fn (member (space n st) (ofBits ((freeCols n st).map (fn x)))) c = fn x c := by
        intro c hc
        rw [member_free hc, ofBits_testBit, List.getD_eq_getElem?_getD, List.getElem?_map,
          List.getElem?_eq_getElem (List.idxOf_lt_length_of_mem hc), List.getElem_idxOf]
        rfl
      refine list_ext (member_length _) hl fun c hc => ?_
      by_cases hp : c ∈ st.pivots
      · obtain ⟨r, hr, rfl⟩ := List.mem_iff_getElem.1 hp
        rw [member_pivot h _ hr, hx r hr]
        congr 1
        exact xsum_congr fun f hf => by rw [hfree f hf]
      · exact hfree c (mem_free.2 ⟨hc, hp⟩)

theorem enumerate_nodup : (space n st).enumerate.Nodup := by
  unfold Space.enumerate
  rw [List.nodup_map_iff_inj_on List.nodup_range]
  intro a ha b hb e
  rw [List.mem_range, space_kernel_length] at ha hb
  apply Nat.eq_of_testBit_eq
  intro i
  by_cases hi : i < (freeCols n st).length
  · have hm : (freeCols n st)[i] ∈ freeCols n st := List.getElem_mem hi
    have h1 := member_free hm a
    rw [e, member_free hm b, List.Nodup.idxOf_getElem free_nodup] at h1
    exact h1.symm
  · have hp : 2 ^ (freeCols n st).length ≤ 2 ^ i := Nat.pow_le_pow_right (by omega) (by omega)
    rw [Nat.testBit_lt_two_pow (by omega), Nat.testBit_lt_two_pow (by omega)]

end reduced

end Verif.Solve.Gf2
