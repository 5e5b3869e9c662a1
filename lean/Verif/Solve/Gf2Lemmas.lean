import Verif.Solve.Gf2
import Mathlib.Data.List.Nodup
import Mathlib.Data.List.Basic
/-!
# Lemmas about GF(2) elimination
-/

namespace Verif.Solve.Gf2

/-! ### Sums over GF(2) -/

/-- The sum over GF(2) of a family of bits. -/
def xsum (l : List Nat) (f : Nat → Bool) : Bool := l.foldr (fun c acc => f c ^^ acc) false

theorem xsum_nil (f : Nat → Bool) : xsum [] f = false := rfl
theorem xsum_cons (c : Nat) (l : List Nat) (f : Nat → Bool) : xsum (c :: l) f = (f c ^^ xsum l f) := rfl

theorem xsum_countP (l : List Nat) (f : Nat → Bool) : l.countP f % 2 = (xsum l f).toNat := by
  induction l with
  | nil => rfl
  | cons c l ih =>
    rw [List.countP_cons, xsum_cons]
    rcases Bool.eq_false_or_eq_true (f c) with e | e <;>
    rcases Bool.eq_false_or_eq_true (xsum l f) with e' | e' <;> rw [e'] at ih <;> rw [e, e'] <;> simp at * <;> omega

theorem xsum_xor (l : List Nat) (f g : Nat → Bool) :
    xsum l (fun c => f c ^^ g c) = (xsum l f ^^ xsum l g) := by
  induction l with
  | nil => rfl
  | cons c l ih =>
    rw [xsum_cons, xsum_cons, xsum_cons, ih]
    cases f c <;> cases g c <;> cases xsum l f <;> cases xsum l g <;> rfl

theorem xsum_congr {l : List Nat} {f g : Nat → Bool} (h : ∀ c ∈ l, f c = g c) : xsum l f = xsum l g := by
  induction l with
  | nil => rfl
  | cons c l ih =>
    rw [xsum_cons, xsum_cons, h c (by simp), ih fun c hc => h c (by simp [hc])]

theorem xsum_zero {l : List Nat} {f : Nat → Bool} (h : ∀ c ∈ l, f c = false) : xsum l f = false := by
  induction l with
  | nil => rfl
  | cons c l ih => rw [xsum_cons, h c (by simp), ih fun c hc => h c (by simp [hc])]; rfl

theorem xsum_filter (l : List Nat) (p f : Nat → Bool) :
    xsum l f = (xsum (l.filter p) f ^^ xsum (l.filter fun c => !p c) f) := by
  induction l with
  | nil => rfl
  | cons c l ih =>
    rw [xsum_cons, ih]
    rcases Bool.eq_false_or_eq_true (p c) with e | e
    · rw [List.filter_cons_of_pos (by simpa using e), List.filter_cons_of_neg (by simpa using e), xsum_cons]
      cases f c <;> simp
    · rw [List.filter_cons_of_neg (by simpa using e), List.filter_cons_of_pos (by simpa using e), xsum_cons]
      cases f c <;> simp

theorem xsum_single {l : List Nat} (hn : l.Nodup) {a : Nat} (ha : a ∈ l) {f : Nat → Bool}
    (h : ∀ c ∈ l, c ≠ a → f c = false) : xsum l f = f a := by
  induction l with
  | nil => cases ha
  | cons c l ih =>
    rw [xsum_cons]
    rw [List.nodup_cons] at hn
    by_cases hc : c = a
    · subst hc
      rw [xsum_zero fun d hd => h d (by simp [hd]) (fun e => hn.1 (e ▸ hd)), Bool.xor_false]
    · rw [h c (by simp) hc, Bool.false_xor]
      rcases List.mem_cons.1 ha with e | e
      · exact absurd e.symm hc
      · exact ih hn.2 e fun d hd => h d (by simp [hd])

theorem xsum_append (l l' : List Nat) (f : Nat → Bool) : xsum (l ++ l') f = (xsum l f ^^ xsum l' f) := by
  induction l with
  | nil => simp [xsum]
  | cons c l ih => rw [List.cons_append, xsum_cons, xsum_cons, ih, Bool.xor_assoc]

/-- The value of a row at `x`. -/
def dot (m a : Nat) (x : Nat → Bool) : Bool := xsum (List.range m) fun c => a.testBit c && x c

theorem dot_xor (m a b : Nat) (x : Nat → Bool) : dot m (a ^^^ b) x = (dot m a x ^^ dot m b x) := by
  unfold dot
  rw [← xsum_xor]
  refine xsum_congr fun c _ => ?_
  rw [Nat.testBit_xor]
  cases a.testBit c <;> cases b.testBit c <;> cases x c <;> rfl

theorem dot_succ (n a : Nat) (x : Nat → Bool) : dot (n + 1) a x = (dot n a x ^^ (a.testBit n && x n)) := by
  unfold dot
  rw [List.range_succ, xsum_append, xsum_cons, xsum_nil, Bool.xor_false]

theorem dot_congr {n a b : Nat} {x y : Nat → Bool} (h : ∀ c < n, (a.testBit c && x c) = (b.testBit c && y c)) :
    dot n a x = dot n b y := xsum_congr fun c hc => h c (List.mem_range.1 hc)

/-! ### Row operations -/

theorem swap_length (rows : List Nat) (i j : Nat) : (swap rows i j).length = rows.length := by simp [swap]
theorem elim_length (rows : List Nat) (i j : Nat) : (elim rows i j).length = rows.length := by simp [elim]

theorem at_swap {rows : List Nat} {i j : Nat} (hi : i < rows.length) (hj : j < rows.length) (r : Nat) :
    at_ (swap rows i j) r = if r = j then at_ rows i else if r = i then at_ rows j else at_ rows r := by
  unfold swap at_
  rw [List.getD_eq_getElem?_getD, List.getElem?_set]
  by_cases h1 : j = r
  · subst h1
    rw [if_pos rfl, if_pos (by rw [List.length_set]; exact hj), if_pos rfl]
    rfl
  · rw [if_neg h1, if_neg (fun e => h1 e.symm), List.getElem?_set]
    by_cases h2 : i = r
    · subst h2
      rw [if_pos rfl, if_pos hi, if_pos rfl]; rfl
    · rw [if_neg h2, if_neg (fun e => h2 e.symm), List.getD_eq_getElem?_getD]

theorem at_elim {rows : List Nat} {rank col r : Nat} (hr : r < rows.length) :
    at_ (elim rows rank col) r =
      if r ≠ rank ∧ (at_ rows r).testBit col = true then at_ rows r ^^^ at_ rows rank else at_ rows r := by
  unfold elim
  have e : at_ rows r = rows[r] := by
    unfold at_; rw [List.getD_eq_getElem?_getD, List.getElem?_eq_getElem hr]; rfl
  rw [e]
  show (List.mapIdx _ rows).getD r 0 = _
  rw [List.getD_eq_getElem?_getD, List.getElem?_mapIdx, List.getElem?_eq_getElem hr]
  rfl

/-- All rows vanish at `x`. -/
def Zero (m : Nat) (rows : List Nat) (x : Nat → Bool) : Prop := ∀ r < rows.length, dot m (at_ rows r) x = false

theorem zero_swap {m : Nat} {rows : List Nat} {i j : Nat} (hi : i < rows.length) (hj : j < rows.length)
    (x : Nat → Bool) : Zero m (swap rows i j) x ↔ Zero m rows x := by
  unfold Zero
  rw [swap_length]
  constructor
  · intro h r hr
    by_cases h1 : r = j
    · have := h i hi
      rw [at_swap hi hj] at this
      by_cases h2 : i = j
      · rw [if_pos h2] at this; rw [h1, ← h2]; exact this
      · rw [if_neg h2, if_pos rfl] at this; rw [h1]; exact this
    · by_cases h2 : r = i
      · have := h j hj
        rw [at_swap hi hj, if_pos rfl] at this; rw [h2]; exact this
      · have := h r hr
        rwa [at_swap hi hj, if_neg h1, if_neg h2] at this
  · intro h r hr
    rw [at_swap hi hj]
    split
    · exact h i hi
    · split
      · exact h j hj
      · exact h r hr

theorem zero_elim {m : Nat} {rows : List Nat} {rank col : Nat} (hk : rank < rows.length) (x : Nat → Bool) :
    Zero m (elim rows rank col) x ↔ Zero m rows x := by
  unfold Zero
  rw [elim_length]
  constructor
  · intro h
    have hp := h rank hk
    rw [at_elim hk, if_neg (fun e => e.1 rfl)] at hp
    intro r hr
    have := h r hr
    rw [at_elim hr] at this
    split at this
    · rw [dot_xor, hp, Bool.xor_false] at this; exact this
    · exact this
  · intro h r hr
    rw [at_elim hr]
    split
    · rw [dot_xor, h r hr, h rank hk]; rfl
    · exact h r hr

/-- What holds after the columns below `c` have been processed. -/
structure Inv (rows0 : List Nat) (c : Nat) (st : St) : Prop where
  len : st.rows.length = rows0.length
  sol : ∀ m x, Zero m st.rows x ↔ Zero m rows0 x
  lt : ∀ p ∈ st.pivots, p < c
  nodup : st.pivots.Nodup
  rank : st.pivots.length ≤ st.rows.length
  piv : ∀ i (h : i < st.pivots.length), ∀ r < st.rows.length, (at_ st.rows r).testBit st.pivots[i] = decide (r = i)
  low : ∀ r, st.pivots.length ≤ r → r < st.rows.length → ∀ c' < c, (at_ st.rows r).testBit c' = false

theorem inv_zero (rows0 : List Nat) : Inv rows0 0 ⟨rows0, []⟩ where
  len := rfl
  sol _ _ := Iff.rfl
  lt p hp := by cases hp
  nodup := List.nodup_nil
  rank := Nat.zero_le _
  piv i h := by simp at h
  low r _ _ c' h := by omega

theorem findPivot_none {rows : List Nat} {rank col : Nat} (h : findPivot rows rank col = none) :
    ∀ r, rank ≤ r → r < rows.length → (at_ rows r).testBit col = false := by
  intro r h1 h2
  have := List.find?_eq_none.1 h r (List.mem_range'_1.2 (by omega))
  simpa using this

theorem findPivot_some {rows : List Nat} {rank col p : Nat} (h : findPivot rows rank col = some p) :
    rank ≤ p ∧ p < rows.length ∧ (at_ rows p).testBit col = true := by
  have h1 := List.find?_some h
  have h2 := List.mem_range'_1.1 (List.mem_of_find?_eq_some h)
  exact ⟨by omega, by omega, h1⟩

theorem inv_step {rows0 : List Nat} {c : Nat} {st : St} (h : Inv rows0 c st) : Inv rows0 (c + 1) (step st c) := by
  unfold step
  cases e : findPivot st.rows st.pivots.length c with
  | none =>
    refine ⟨h.len, h.sol, fun p hp => Nat.lt_succ_of_lt (h.lt p hp), h.nodup, h.rank, h.piv, ?_⟩
    intro r h1 h2 c' hc
    by_cases hcc : c' = c
    · subst hcc; exact findPivot_none e r h1 h2
    · exact h.low r h1 h2 c' (by omega)
  | some p =>
    obtain ⟨hp1, hp2, hp3⟩ := findPivot_some e
    generalize hk : st.pivots.length = k at *
    have hkl : k < st.rows.length := by omega
    have hsl : (swap st.rows k p).length = st.rows.length := swap_length _ _ _
    -- the rows after the swap
    have hlow : ∀ r, k ≤ r → r < st.rows.length → ∀ c' < c, (at_ (swap st.rows k p) r).testBit c' = false := by
      intro r h1 h2 c' hc
      rw [at_swap hkl hp2]
      split
      · exact h.low k (by omega) hkl c' hc
      · split
        · exact h.low p (by omega) hp2 c' hc
        · exact h.low r (by omega) h2 c' hc
    have hpk : (at_ (swap st.rows k p) k).testBit c = true := by
      rw [at_swap hkl hp2]
      split
      · next e => rw [e]; exact hp3
      · rw [if_pos rfl]; exact hp3
    have hpiv : ∀ i (hi : i < k), ∀ r < st.rows.length,
        (at_ (swap st.rows k p) r).testBit (st.pivots[i]'(by omega)) = decide (r = i) := by
      intro i hi r hr
      rw [at_swap hkl hp2]
      have hne : ∀ q, k ≤ q → q < st.rows.length → (at_ st.rows q).testBit (st.pivots[i]'(by omega)) = false := by
        intro q h1 h2
        rw [h.piv i (by omega) q h2]; exact decide_eq_false (by omega)
      split
      · next e => rw [hne k (Nat.le_refl _) hkl, decide_eq_false]; omega
      · split
        · next e => rw [hne p hp1 hp2, decide_eq_false]; omega
        · exact h.piv i (by omega) r hr
    have hkl' : k < (swap st.rows k p).length := by omega
    show Inv rows0 (c + 1) ⟨elim (swap st.rows st.pivots.length p) st.pivots.length c, st.pivots ++ [c]⟩
    rw [hk]
    have hlen : (elim (swap st.rows k p) k c).length = st.rows.length := by rw [elim_length, hsl]
    refine ⟨?_, ?_, ?_, ?_, ?_, ?_, ?_⟩
    · show (elim (swap st.rows k p) k c).length = _
      rw [hlen, h.len]
    · intro m x
      show Zero m (elim (swap st.rows k p) k c) x ↔ _
      rw [zero_elim hkl', zero_swap hkl hp2, h.sol]
    · intro q hq
      rcases List.mem_append.1 hq with hq | hq
      · exact Nat.lt_succ_of_lt (h.lt q hq)
      · simp at hq; omega
    · show (st.pivots ++ [c]).Nodup
      rw [List.nodup_append]
      refine ⟨h.nodup, List.nodup_singleton _, ?_⟩
      intro a ha b hb
      have := h.lt a ha
      simp at hb; omega
    · show (st.pivots ++ [c]).length ≤ (elim (swap st.rows k p) k c).length
      rw [hlen, List.length_append, List.length_singleton]; omega
    · intro i hi r hr
      have hr' : r < st.rows.length := by rw [← hlen]; exact hr
      have hi' : i < k + 1 := by
        have : (st.pivots ++ [c]).length = k + 1 := by rw [List.length_append, List.length_singleton, hk]
        rw [← this]; exact hi
      show (at_ (elim (swap st.rows k p) k c) r).testBit ((st.pivots ++ [c])[i]) = _
      rw [at_elim (by omega)]
      by_cases hik : i < k
      · have e1 : (st.pivots ++ [c])[i]'hi = st.pivots[i]'(by omega) := List.getElem_append_left _
        rw [e1]
        split
        · rw [Nat.testBit_xor, hpiv i hik r hr', hpiv i hik k hkl, decide_eq_false (show ¬ k = i by omega),
            Bool.xor_false]
        · exact hpiv i hik r hr'
      · have hik' : i = k := by omega
        subst hik'
        have e1 : (st.pivots ++ [c])[i]'hi = c := by
          rw [List.getElem_append_right (by omega)]; simp
        rw [e1]
        split
        · next hc => rw [Nat.testBit_xor, hc.2, hpk, decide_eq_false hc.1]; rfl
        · next hc =>
          by_cases hri : r = i
          · rw [hri, hpk]; simp
          · rw [decide_eq_false hri]
            by_contra hb
            exact hc ⟨hri, by simpa using hb⟩
    · intro r h1 h2 c' hc
      have h1' : k + 1 ≤ r := by
        have : (st.pivots ++ [c]).length = k + 1 := by rw [List.length_append, List.length_singleton, hk]
        rw [← this]; exact h1
      have h2' : r < st.rows.length := by rw [← hlen]; exact h2
      show (at_ (elim (swap st.rows k p) k c) r).testBit c' = false
      rw [at_elim (by omega)]
      by_cases hcc : c' = c
      · subst hcc
        split
        · next hc => rw [Nat.testBit_xor, hc.2, hpk]; rfl
        · next hc =>
          by_contra hb
          exact hc ⟨by omega, by simpa using hb⟩
      · split
        · rw [Nat.testBit_xor, hlow r (by omega) h2' c' (by omega), hlow k (Nat.le_refl _) hkl c' (by omega)]; rfl
        · exact hlow r (by omega) h2' c' (by omega)

theorem inv_reduce (rows0 : List Nat) : ∀ n, Inv rows0 n (reduce n rows0)
  | 0 => inv_zero rows0
  | n + 1 => by
    have := inv_step (inv_reduce rows0 n)
    unfold reduce at this ⊢
    rw [List.range_succ, List.foldl_append]
    exact this

end Verif.Solve.Gf2
