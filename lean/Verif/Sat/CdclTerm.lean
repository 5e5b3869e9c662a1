import Verif.Sat.CdclRun
/-!
# The search ends
-/

namespace Verif.Sat
open Verif.Proof

section
variable {F : List Clause} {m : Nat} {S : Solver}

/-- Weight of the first `k` trail positions: a position of level `d` counts `(n + 1) ^ (n - d)`. -/
def wt (n : Nat) (lim : List Nat) : Nat → Nat
  | 0 => 0
  | k + 1 => wt n lim k + (n + 1) ^ (n - lv lim k)

theorem wt_congr {n : Nat} {a b : List Nat} {k : Nat} (h : ∀ i < k, lv a i = lv b i) : wt n a k = wt n b k := by
  induction k with
  | zero => rfl
  | succ k ih => rw [wt, wt, ih fun i hi => h i (by omega), h k (by omega)]

theorem wt_mono {n : Nat} {lim : List Nat} {j k : Nat} (h : j ≤ k) : wt n lim j ≤ wt n lim k := by
  induction k with
  | zero => have : j = 0 := by omega
            subst this; exact Nat.le_refl _
  | succ k ih =>
    rcases Nat.lt_or_ge j (k + 1) with h' | h'
    · rw [wt]; have := ih (by omega); omega
    · have : j = k + 1 := by omega
      subst this; exact Nat.le_refl _

theorem wt_le {n : Nat} {lim : List Nat} {k : Nat} : wt n lim k ≤ k * (n + 1) ^ n := by
  induction k with
  | zero => exact Nat.zero_le _
  | succ k ih =>
    rw [wt, Nat.add_mul, Nat.one_mul]
    have : (n + 1) ^ (n - lv lim k) ≤ (n + 1) ^ n := Nat.pow_le_pow_right (by omega) (by omega)
    omega

theorem wt_tail {n : Nat} {lim : List Nat} {t j k : Nat} (h : t ≤ k) (hj : ∀ i, t ≤ i → j < lv lim i) :
    wt n lim k ≤ wt n lim t + (k - t) * (n + 1) ^ (n - (j + 1)) := by
  induction k with
  | zero => have : t = 0 := by omega
            subst this; simp
  | succ k ih =>
    rcases Nat.lt_or_ge t (k + 1) with h' | h'
    · have h1 := ih (by omega)
      rw [wt]
      have h2 : (n + 1) ^ (n - lv lim k) ≤ (n + 1) ^ (n - (j + 1)) :=
        Nat.pow_le_pow_right (by omega) (by have := hj k (by omega); omega)
      have h3 : k + 1 - t = (k - t) + 1 := by omega
      rw [h3, Nat.add_mul, Nat.one_mul]
      omega
    · have : t = k + 1 := by omega
      subst this; omega

/-- the weight of a state -/
def Solver.weight (S : Solver) : Nat := wt S.n S.lim S.trail.length

theorem Core.weight_le (h : Core F S) : S.weight ≤ S.n * (S.n + 1) ^ S.n :=
  Nat.le_trans wt_le (Nat.mul_le_mul_right _ h.trail_le)

theorem Core.lim_le (h : Core F S) : S.lim.length ≤ S.n := by
  have hn : S.lim.Nodup := h.limS.imp (fun h => Nat.ne_of_lt h)
  have := List.Nodup.length_le_of_subset (l₁ := S.lim) (l₂ := List.range S.trail.length) hn (by
    intro v hv
    exact List.mem_range.2 (h.limB v hv))
  have h2 := h.trail_le
  simp at this
  omega

theorem weight_ext {S S' : Solver} (h : Ext S S') : S.weight ≤ S'.weight := by
  unfold Solver.weight
  rw [h.n, h.lim]
  exact wt_mono (List.IsPrefix.length_le h.pre)

theorem weight_decide (h : Core F S) (l : Lit) : S.weight < (S.decide l).weight := by
  show wt S.n S.lim S.trail.length < wt S.n (S.lim ++ [S.trail.length]) (S.trail ++ [l]).length
  rw [List.length_append, List.length_singleton, wt]
  have : wt S.n (S.lim ++ [S.trail.length]) S.trail.length = wt S.n S.lim S.trail.length := by
    apply wt_congr
    intro i hi
    rw [lv_append, lv_zero (lim := [S.trail.length]), Nat.add_zero]
    intro x hx; simp at hx; omega
  rw [this]
  have := Nat.pow_pos (n := S.n - lv (S.lim ++ [S.trail.length]) S.trail.length) (show 0 < S.n + 1 by omega)
  omega

theorem weight_learn {S S' : Solver} (h : Core F S) (hl : LearnOK F m S S') : S.weight < S'.weight := by
  obtain ⟨j, t, hj, hlim, hlen⟩ := hl.back
  have htl := h.limB t (List.mem_of_getElem? hj)
  have hjl := (List.getElem?_eq_some_iff.1 hj).1
  unfold Solver.weight
  rw [hl.n, hlim, hlen, wt]
  have h1 : wt S.n (S.lim.take j) t = wt S.n S.lim t := wt_congr fun i hi => lv_take h.limS hj hi
  have h2 := wt_tail (n := S.n) (lim := S.lim) (t := t) (j := j) (k := S.trail.length) (by omega)
    (fun i hi => lv_gt_of h.limS hj hi)
  have h3 : lv (S.lim.take j) t = j := by
    rw [lv_full]
    · rw [List.length_take]; omega
    · intro x hx
      exact Nat.le_of_lt (h.take_lim hj hx)
  rw [h1, h3]
  have hn := h.trail_le
  have hjn : j + 1 ≤ S.n := by have := h.lim_le; omega
  have h4 : (S.n + 1) ^ (S.n - j) = (S.n + 1) * (S.n + 1) ^ (S.n - (j + 1)) := by
    have : S.n - j = (S.n - (j + 1)) + 1 := by omega
    rw [this, Nat.pow_succ, Nat.mul_comm]
  have h5 : (S.trail.length - t) * (S.n + 1) ^ (S.n - (j + 1)) ≤ S.n * (S.n + 1) ^ (S.n - (j + 1)) :=
    Nat.mul_le_mul_right _ (by omega)
  have h6 := Nat.pow_pos (n := S.n - (j + 1)) (show 0 < S.n + 1 by omega)
  rw [h4, Nat.add_mul, Nat.one_mul]
  omega

theorem assumeLoop_ends (as : List Lit) (chs : List Choice) (has : ∀ a ∈ as, a.var < S.n) (h : Inv F m S)
    (hk : S.n * (S.n + 1) ^ S.n < S.weight + chs.length) : (assumeLoop as chs S).1 ≠ .pending := by
  induction chs generalizing S with
  | nil =>
    have := h.core.weight_le
    simp at hk
    omega
  | cons ch chs ih =>
    rw [List.length_cons] at hk
    rw [assumeLoop]
    have hp := propagate_ok h
    have hfix := fun S' => propagate_fix (S' := S') h
    revert hp hfix
    rcases S.propagate with ⟨r, S1⟩
    cases r with
    | panic => exact fun hp => hp.elim
    | conflict ci =>
      rintro ⟨hc, hf, hx⟩ _
      simp only
      have hn : S1.n = S.n := hx.n
      split
      · simp
      · rename_i hl
        obtain ⟨S2, e, hL⟩ := learn_ok hc hl hf
        rw [e]
        simp only
        have hn2 : S2.n = S.n := hL.n.trans hn
        have h1 := weight_ext hx
        have h2 := weight_learn hc.core hL
        exact ih (S := S2) (by rw [hn2]; exact has) hL.inv (by rw [hn2]; omega)
    | done =>
      rintro ⟨hi, hx⟩ hfix
      simp only
      have hq := hfix S1 rfl
      have hn : S1.n = S.n := hx.n
      have h1 := weight_ext hx
      cases ho : firstOpen S1 as with
      | refuted => simp
      | place l =>
        simp only
        obtain ⟨g1, g2⟩ := firstOpen_place ho
        have hn' : (S1.decide l).n = S.n := hn
        have h2 := weight_decide hi.core l
        exact ih (S := S1.decide l) (by rw [hn']; exact has)
          (hi.decide ((val_none _ _).1 g2) (by rw [hn]; exact has l g1) hq) (by rw [hn']; omega)
      | holds =>
        simp only
        unfold Solver.pickBranch
        obtain ⟨hp, e1, e2, e3⟩ := pickLoop_ok (pop := ch.pop) hi (Nat.lt_succ_self _)
        revert e1 e3
        rcases pickLoop ch.pop (S1.heap.length + 1) S1 with ⟨o, S2⟩
        cases o with
        | none => simp
        | some v =>
          rintro rfl ⟨g1, g2, g3⟩
          simp only
          have hn' : (({ S1 with heap := hp } : Solver).decide ⟨v, ch.phase v⟩).n = S.n := hn
          have h2 : S1.weight < (({ S1 with heap := hp } : Solver).decide ⟨v, ch.phase v⟩).weight :=
            weight_decide hi.core ⟨v, ch.phase v⟩
          exact ih (S := ({ S1 with heap := hp } : Solver).decide ⟨v, ch.phase v⟩) (by rw [hn']; exact has)
            (decide_ok (l := ⟨v, ch.phase v⟩) hi hq g1 g2 g3 e2) (by rw [hn']; omega)

theorem assuming_ends (as : List Lit) (chs : List Choice) (has : ∀ a ∈ as, a.var < S.n) (h : Inv F m S)
    (hk : S.n * (S.n + 1) ^ S.n < chs.length) : (S.solveAssuming as chs).1 ≠ .pending := by
  unfold Solver.solveAssuming
  simp only
  obtain ⟨g1, g2⟩ := backtrack_inv h 0
  have hn : (S.backtrackTo 0).n = S.n := g2.n
  revert g1 hn
  generalize S.backtrackTo 0 = S0
  intro g1 hn
  split
  · simp
  · have hp := propagate_ok g1
    revert hp
    rcases S0.propagate with ⟨r, S1⟩
    cases r with
    | panic => exact fun hp => hp.elim
    | conflict ci => rintro _; simp
    | done =>
      rintro ⟨hi, hx⟩
      have hn1 : S1.n = S.n := hx.n.trans hn
      exact assumeLoop_ends as chs (by rw [hn1]; exact has) hi (by rw [hn1]; omega)

/-- Turns a budgeted search may still take. -/
theorem budgetLoop_ends {max : Nat} (hmax : max ≠ 0) (chs : List Choice) (k : Nat) (h : Inv F m S) (hb : Bounds m S)
    (hkm : k < max) (hk : (max - k) * (S.n + 1) < S.trail.length + chs.length) :
    (budgetLoop max chs k S).1 ≠ .pending := by
  induction chs generalizing k S with
  | nil =>
    have h1 := h.core.trail_le
    have h2 : 1 * (S.n + 1) ≤ (max - k) * (S.n + 1) := Nat.mul_le_mul_right _ (by omega)
    simp at hk
    omega
  | cons ch chs ih =>
    rw [List.length_cons] at hk
    rw [budgetLoop]
    have hp := propagate_ok h
    have hfix := fun S' => propagate_fix (S' := S') h
    revert hp hfix
    rcases S.propagate with ⟨r, S1⟩
    cases r with
    | panic => exact fun hp => hp.elim
    | conflict ci =>
      rintro ⟨hc, hf, hx⟩ _
      simp only
      have hn : S1.n = S.n := hx.n
      split
      · simp
      · rename_i hl
        obtain ⟨S2, e, hL⟩ := learn_ok hc hl hf
        rw [e]
        simp only
        have hb2 := (hb.ext hx).learn hL
        split
        · simp
        · rename_i hnb
          obtain ⟨S3, e3, i3, b3, n3, em3⟩ := maybeReduce_ok hL.inv ch.drop hb2
          rw [e3]
          simp only
          have hn3 : S3.n = S.n := by rw [n3, hL.n]; exact hn
          have hk1 : k + 1 < max := by
            rcases Nat.lt_or_ge (k + 1) max with h' | h'
            · exact h'
            · exact absurd ⟨hmax, h'⟩ hnb
          have hbound : (max - (k + 1)) * (S.n + 1) < chs.length := by
            have e : max - k = (max - (k + 1)) + 1 := by omega
            rw [e, Nat.add_mul, Nat.one_mul] at hk
            have := h.core.trail_le
            omega
          split
          · obtain ⟨g1, g2⟩ := backtrack_inv i3 0
            exact ih (k + 1) g1 (b3.back g2) hk1 (by rw [g2.n, hn3]; omega)
          · exact ih (k + 1) i3 b3 hk1 (by rw [hn3]; omega)
    | done =>
      rintro ⟨hi, hx⟩ hfix
      simp only
      have hq := hfix S1 rfl
      have hb1 := hb.ext hx
      have hn : S1.n = S.n := hx.n
      have hlen := List.IsPrefix.length_le hx.pre
      unfold Solver.pickBranch
      obtain ⟨hp, e1, e2, e3⟩ := pickLoop_ok (pop := ch.pop) hi (Nat.lt_succ_self _)
      revert e1 e3
      rcases pickLoop ch.pop (S1.heap.length + 1) S1 with ⟨o, S2⟩
      cases o with
      | none => simp
      | some v =>
        rintro rfl ⟨h1, h2, h3⟩
        simp only
        have hn' : (({ S1 with heap := hp } : Solver).decide ⟨v, ch.phase v⟩).n = S.n := hn
        have hl' : (({ S1 with heap := hp } : Solver).decide ⟨v, ch.phase v⟩).trail.length = S1.trail.length + 1 := by
          show (S1.trail ++ [_]).length = _
          simp
        exact ih k (decide_ok (l := ⟨v, ch.phase v⟩) hi hq h1 h2 h3 e2) (Bounds.decide (S := { S1 with heap := hp })
          ⟨hb1.mle, hb1.nle, hb1.why, hb1.live⟩) hkm (by rw [hn', hl']; omega)

theorem budgeted_ends {max : Nat} (hmax : max ≠ 0) (chs : List Choice) (h : After F m S)
    (hk : max * (S.n + 1) < chs.length) : (S.solveBudgeted max chs).1 ≠ .pending := by
  have hinv : Inv F m { S with nOrig := S.clauses.length } := h.inv.setNOrig _
  have hnle := h.nle
  have hb : Bounds m { S with nOrig := S.clauses.length } := by
    refine ⟨h.inv.orig.mle, Nat.le_refl _, ?_, fun _ => ?_⟩
    · intro v ci hr
      rcases h.why v ci hr with h' | h'
      · left
        show ci < S.clauses.length + S.limit
        omega
      · exact .inr h'
    · have : 1 ≤ Nat.max S.limit 1 := Nat.le_max_right _ _
      show S.clauses.length < S.clauses.length + Nat.max S.limit 1
      omega
  unfold Solver.solveBudgeted
  simp only
  split
  · simp
  · have hp := propagate_ok hinv
    revert hp
    rcases Solver.propagate { S with nOrig := S.clauses.length } with ⟨r, S1⟩
    cases r with
    | panic => exact fun hp => hp.elim
    | conflict ci => rintro _; simp
    | done =>
      rintro ⟨hi, hx⟩
      have hn : S1.n = S.n := hx.n
      exact budgetLoop_ends hmax chs 0 hi (hb.ext hx) (by omega) (by rw [hn, Nat.sub_zero]; omega)

end

end Verif.Sat
