import Verif.Proof.Cardinality
import Verif.Proof.CnfLemmas
/-!
# Lemmas about cardinality constraints
-/

namespace Verif.Proof.Card
open Verif.Proof

theorem eval_tautology (v : Expr → Bool) : tautology.eval v = true := by
  simp [tautology, Expr.eval]

theorem eval_contradiction (v : Expr → Bool) : contradiction.eval v = false := by
  simp [contradiction, Expr.eval]

theorem eval_foldl (v : Expr → Bool) (es : List Expr) (e : Expr) :
    (es.foldl Expr.and e).eval v = (e.eval v && es.all (Expr.eval v)) := by
  induction es generalizing e with
  | nil => simp
  | cons a es ih => rw [List.foldl_cons, ih, Expr.eval, List.all_cons, Bool.and_assoc]

theorem eval_conj (v : Expr → Bool) (es : List Expr) : (conj es).eval v = es.all (Expr.eval v) := by
  cases es with
  | nil => exact eval_tautology v
  | cons a es => rw [conj, eval_foldl, List.all_cons]

theorem eval_s (v : Expr → Bool) (aux : List Char) (i j : Nat) : (s aux i j).eval v = v (s aux i j) := rfl

/-! ### Names -/

theorem split_digits {a b x y : List Char} (ha : ∀ c ∈ x, c ≠ '_') (hb : ∀ c ∈ y, c ≠ '_')
    (h : a ++ '_' :: x = b ++ '_' :: y) : a = b ∧ x = y := by
  have hr := congrArg List.reverse h
  simp only [List.reverse_append, List.reverse_cons, List.append_assoc] at hr
  have key : ∀ (x y a b : List Char), (∀ c ∈ x, c ≠ '_') → (∀ c ∈ y, c ≠ '_') →
      x ++ ('_' :: a) = y ++ ('_' :: b) → x = y ∧ a = b := by
    intro x
    induction x with
    | nil =>
      intro y a b _ hy h
      cases y with
      | nil => simpa using h
      | cons c y => simp only [List.nil_append, List.cons_append, List.cons.injEq] at h
                    exact absurd h.1.symm (hy c (by simp))
    | cons d x ih =>
      intro y a b hx hy h
      cases y with
      | nil => simp only [List.nil_append, List.cons_append, List.cons.injEq] at h
               exact absurd h.1 (hx d (by simp))
      | cons c y =>
        simp only [List.cons_append, List.cons.injEq] at h
        have := ih y a b (fun c hc => hx c (by simp [hc])) (fun c hc => hy c (by simp [hc])) h.2
        exact ⟨by rw [h.1, this.1], this.2⟩
  have := key x.reverse y.reverse a.reverse b.reverse (fun c hc => ha c (List.mem_reverse.1 hc))
    (fun c hc => hb c (List.mem_reverse.1 hc)) (by simpa using hr)
  exact ⟨List.reverse_injective this.2, List.reverse_injective this.1⟩

theorem dec_no_us (n : Nat) : ∀ c ∈ dec n, c ≠ '_' := by
  intro c hc e
  have := isDigit_dec hc
  rw [e] at this
  revert this; decide

theorem dec_inj {a b : Nat} (h : dec a = dec b) : a = b := by
  rw [← digitsVal_dec a, ← digitsVal_dec b, h]

theorem auxName_inj {a b : List Char} {i j i' j' : Nat} (h : auxName a i j = auxName b i' j') :
    a = b ∧ i = i' ∧ j = j' := by
  unfold auxName at h
  have h' : (a ++ '_' :: dec i) ++ '_' :: dec j = (b ++ '_' :: dec i') ++ '_' :: dec j' := by simpa using h
  obtain ⟨h1, h2⟩ := split_digits (dec_no_us _) (dec_no_us _) h'
  obtain ⟨h3, h4⟩ := split_digits (dec_no_us _) (dec_no_us _) h1
  exact ⟨h3, dec_inj h4, dec_inj h2⟩

theorem auxName_last (a : List Char) (i j : Nat) : ∃ l c, auxName a i j = l ++ [c] ∧ c.isDigit = true := by
  unfold auxName
  rcases List.eq_nil_or_concat (dec j) with h | ⟨l, c, h⟩
  · exact absurd h (dec_ne_nil j)
  · refine ⟨a ++ '_' :: (dec i ++ '_' :: l), c, ?_, ?_⟩
    · rw [h]; simp
    · exact isDigit_dec (n := j) (by rw [h]; simp)

theorem auxName_ne_true (a : List Char) (i j : Nat) : auxName a i j ≠ trueName := by
  obtain ⟨l, c, h, hc⟩ := auxName_last a i j
  rw [h]
  intro e
  have : trueName = ['_', '_', 'c', 'a', 'r', 'd', '_', 't', 'r', 'u'] ++ ['e'] := rfl
  rw [this] at e
  have := (List.append_inj' e rfl).2
  simp only [List.cons.injEq, and_true] at this
  rw [this] at hc; revert hc; decide

theorem auxName_ne_false (a : List Char) (i j : Nat) : auxName a i j ≠ falseName := by
  obtain ⟨l, c, h, hc⟩ := auxName_last a i j
  rw [h]
  intro e
  have : falseName = ['_', '_', 'c', 'a', 'r', 'd', '_', 'f', 'a', 'l', 's'] ++ ['e'] := rfl
  rw [this] at e
  have := (List.append_inj' e rfl).2
  simp only [List.cons.injEq, and_true] at this
  rw [this] at hc; revert hc; decide

/-! ### Evaluation depends on the mentioned atoms only -/

theorem eval_congr {v w : Expr → Bool} : ∀ {e : Expr}, (∀ a, Mentions a e → v a = w a) → e.eval v = e.eval w
  | .and p q, h => by
    rw [Expr.eval, Expr.eval, eval_congr (fun a ha => h a (Or.inl ha)), eval_congr (fun a ha => h a (Or.inr ha))]
  | .or p q, h => by
    rw [Expr.eval, Expr.eval, eval_congr (fun a ha => h a (Or.inl ha)), eval_congr (fun a ha => h a (Or.inr ha))]
  | .implies p q, h => by
    rw [Expr.eval, Expr.eval, eval_congr (fun a ha => h a (Or.inl ha)), eval_congr (fun a ha => h a (Or.inr ha))]
  | .iff p q, h => by
    rw [Expr.eval, Expr.eval, eval_congr (fun a ha => h a (Or.inl ha)), eval_congr (fun a ha => h a (Or.inr ha))]
  | .not p, h => by
    rw [Expr.eval, Expr.eval, eval_congr (e := p) (fun a ha => h a ha)]
  | .pred .., h => h _ rfl
  | .ident .., h => h _ rfl
  | .atom .., h => h _ rfl
  | .other .., h => h _ rfl

/-! ### The counter -/

/-- The number of true formulas among the first `i`. -/
def cnt (v : Expr → Bool) (vars : List Expr) (i : Nat) : Nat := (vars.take i).countP (Expr.eval v)

theorem cnt_succ (v : Expr → Bool) (vars : List Expr) {i : Nat} (hi : i < vars.length) :
    cnt v vars (i + 1) = cnt v vars i + if (nth vars (i + 1)).eval v = true then 1 else 0 := by
  unfold cnt nth
  rw [List.take_succ_eq_append_getElem hi, List.countP_append]
  simp only [Nat.add_sub_cancel, List.getD_eq_getElem?_getD, List.getElem?_eq_getElem hi, Option.getD_some,
    List.countP_cons, List.countP_nil, Nat.zero_add]

theorem cnt_zero (v : Expr → Bool) (vars : List Expr) : cnt v vars 0 = 0 := by simp [cnt]

theorem cnt_all (v : Expr → Bool) (vars : List Expr) : cnt v vars vars.length = vars.countP (Expr.eval v) := by
  unfold cnt; rw [List.take_length]

/-- What the clauses say about a valuation. -/
structure Rows (v : Expr → Bool) (vars : List Expr) (k : Nat) (aux : List Char) : Prop where
  one : (nth vars 1).eval v = true → v (s aux 1 1) = true
  noMore : ∀ j, 2 ≤ j → j ≤ k → v (s aux 1 j) = false
  start : ∀ i, 2 ≤ i → i ≤ vars.length → (nth vars i).eval v = true → v (s aux i 1) = true
  keepOne : ∀ i, 2 ≤ i → i ≤ vars.length → v (s aux (i - 1) 1) = true → v (s aux i 1) = true
  bump : ∀ i, 2 ≤ i → i ≤ vars.length → ∀ j, 2 ≤ j → j ≤ k → (nth vars i).eval v = true →
    v (s aux (i - 1) (j - 1)) = true → v (s aux i j) = true
  keep : ∀ i, 2 ≤ i → i ≤ vars.length → ∀ j, 2 ≤ j → j ≤ k → v (s aux (i - 1) j) = true → v (s aux i j) = true
  stop : ∀ i, 2 ≤ i → i ≤ vars.length → (nth vars i).eval v = true → v (s aux (i - 1) k) = false

theorem imp_iff (a b : Bool) : (!a || b) = true ↔ (a = true → b = true) := by cases a <;> cases b <;> simp

theorem nand_iff (a b : Bool) : (!(a && b)) = true ↔ (a = true → b = false) := by cases a <;> cases b <;> simp

theorem atMost_rows (v : Expr → Bool) (vars : List Expr) (k : Nat) (aux : List Char) (hk : 0 < k)
    (hn : k < vars.length) : (atMost vars k aux).eval v = true ↔ Rows v vars k aux := by
  unfold atMost
  rw [if_neg (by omega), if_neg (by omega), eval_conj, List.all_eq_true]
  constructor
  · intro h
    have hrow : ∀ i, 2 ≤ i → i ≤ vars.length → ∀ e ∈ row vars k aux i, e.eval v = true := by
      intro i h1 h2 e he
      exact h e (List.mem_append_right _ (List.mem_flatMap.2 ⟨i, List.mem_range'_1.2 (by omega), he⟩))
    constructor
    · have := h (.implies (nth vars 1) (s aux 1 1)) (by simp [firstRow])
      rw [Expr.eval, imp_iff] at this; exact this
    · intro j h1 h2
      have := h (.not (s aux 1 j)) (List.mem_append_left _ (by
        unfold firstRow
        exact List.mem_cons_of_mem _ (List.mem_map.2 ⟨j, List.mem_range'_1.2 (by omega), rfl⟩)))
      rw [Expr.eval, Bool.not_eq_true'] at this; exact this
    · intro i h1 h2
      have := hrow i h1 h2 (.implies (nth vars i) (s aux i 1)) (by simp [row])
      rw [Expr.eval, imp_iff] at this; exact this
    · intro i h1 h2
      have := hrow i h1 h2 (.implies (s aux (i - 1) 1) (s aux i 1)) (by simp [row])
      rw [Expr.eval, imp_iff] at this; exact this
    · intro i h1 h2 j h3 h4
      have := hrow i h1 h2 (.implies (.and (nth vars i) (s aux (i - 1) (j - 1))) (s aux i j)) (by
        unfold row
        exact List.mem_append_left _ (List.mem_append_right _ (List.mem_flatMap.2
          ⟨j, List.mem_range'_1.2 (by omega), by simp⟩)))
      rw [Expr.eval, imp_iff, Expr.eval, Bool.and_eq_true] at this
      exact fun a b => this ⟨a, b⟩
    · intro i h1 h2 j h3 h4
      have := hrow i h1 h2 (.implies (s aux (i - 1) j) (s aux i j)) (by
        unfold row
        exact List.mem_append_left _ (List.mem_append_right _ (List.mem_flatMap.2
          ⟨j, List.mem_range'_1.2 (by omega), by simp⟩)))
      rw [Expr.eval, imp_iff] at this; exact this
    · intro i h1 h2
      have := hrow i h1 h2 (.not (.and (nth vars i) (s aux (i - 1) k))) (by simp [row])
      rw [Expr.eval, Expr.eval, nand_iff] at this; exact this
  · intro h e he
    rcases List.mem_append.1 he with he | he
    · unfold firstRow at he
      rcases List.mem_cons.1 he with rfl | he
      · rw [Expr.eval, imp_iff]; exact h.one
      · obtain ⟨j, hj, rfl⟩ := List.mem_map.1 he
        have := List.mem_range'_1.1 hj
        rw [Expr.eval, Bool.not_eq_true']; exact h.noMore j (by omega) (by omega)
    · obtain ⟨i, hi, he⟩ := List.mem_flatMap.1 he
      have hi' := List.mem_range'_1.1 hi
      have a1 : 2 ≤ i := by omega
      have a2 : i ≤ vars.length := by omega
      unfold row at he
      rcases List.mem_append.1 he with he | he
      · rcases List.mem_append.1 he with he | he
        · simp only [List.mem_cons, List.not_mem_nil, or_false] at he
          rcases he with rfl | rfl
          · rw [Expr.eval, imp_iff]; exact h.start i a1 a2
          · rw [Expr.eval, imp_iff]; exact h.keepOne i a1 a2
        · obtain ⟨j, hj, he⟩ := List.mem_flatMap.1 he
          have hj' := List.mem_range'_1.1 hj
          simp only [List.mem_cons, List.not_mem_nil, or_false] at he
          rcases he with rfl | rfl
          · rw [Expr.eval, imp_iff, Expr.eval, Bool.and_eq_true]
            exact fun c => h.bump i a1 a2 j (by omega) (by omega) c.1 c.2
          · rw [Expr.eval, imp_iff]; exact h.keep i a1 a2 j (by omega) (by omega)
      · simp only [List.mem_cons, List.not_mem_nil, or_false] at he
        subst he
        rw [Expr.eval, Expr.eval, nand_iff]; exact h.stop i a1 a2

theorem rows_sound {v : Expr → Bool} {vars : List Expr} {k : Nat} {aux : List Char} (hk : 0 < k)
    (h : Rows v vars k aux) : ∀ i, i + 1 ≤ vars.length → cnt v vars (i + 1) ≤ k ∧
      ∀ j, 1 ≤ j → j ≤ k → j ≤ cnt v vars (i + 1) → v (s aux (i + 1) j) = true
  | 0, hi => by
    rw [cnt_succ v vars hi, cnt_zero]
    split <;> rename_i hx
    · refine ⟨by omega, fun j h1 h2 h3 => ?_⟩
      have : j = 1 := by omega
      subst this
      exact h.one hx
    · exact ⟨by omega, fun j h1 h2 h3 => by omega⟩
  | i + 1, hi => by
    obtain ⟨ih1, ih2⟩ := rows_sound hk h i (by omega)
    rw [cnt_succ v vars (show i + 1 < vars.length by omega)]
    split <;> rename_i hx
    · have hst := h.stop (i + 2) (by omega) hi hx
      have hlt : cnt v vars (i + 1) < k := by
        by_contra hc
        have := ih2 k hk (Nat.le_refl _) (by omega)
        rw [show i + 2 - 1 = i + 1 from rfl, this] at hst
        cases hst
      refine ⟨by omega, fun j h1 h2 h3 => ?_⟩
      by_cases hj : j = 1
      · subst hj; exact h.start (i + 2) (by omega) hi hx
      · exact h.bump (i + 2) (by omega) hi j (by omega) h2 hx (ih2 (j - 1) (by omega) (by omega) (by omega))
    · refine ⟨by omega, fun j h1 h2 h3 => ?_⟩
      have hp := ih2 j h1 h2 (by omega)
      by_cases hj : j = 1
      · subst hj; exact h.keepOne (i + 2) (by omega) hi hp
      · exact h.keep (i + 2) (by omega) hi j (by omega) h2 hp

/-- A valuation that satisfies the constraint has few true formulas, whatever it does with the auxiliary atoms. -/
theorem atMost_sound {v : Expr → Bool} {vars : List Expr} {k : Nat} {aux : List Char}
    (h : (atMost vars k aux).eval v = true) : vars.countP (Expr.eval v) ≤ k := by
  by_cases hn : k ≥ vars.length
  · exact Nat.le_trans List.countP_le_length hn
  by_cases hk : k = 0
  · unfold atMost at h
    rw [if_neg hn, if_pos hk, eval_conj, List.all_eq_true] at h
    subst hk
    rw [Nat.le_zero, List.countP_eq_zero]
    intro x hx hc
    have := h (.not x) (List.mem_map.2 ⟨x, hx, rfl⟩)
    rw [Expr.eval, hc] at this; cases this
  · have hr := (atMost_rows v vars k aux (by omega) (by omega)).1 h
    have := (rows_sound (by omega) hr (vars.length - 1) (by omega)).1
    rwa [show vars.length - 1 + 1 = vars.length by omega, cnt_all] at this

open Classical in
/-- The valuation that counts. -/
noncomputable def counting (v : Expr → Bool) (vars : List Expr) (aux : List Char) : Expr → Bool := fun e =>
  if h : IsAux aux e then decide (h.choose_spec.choose ≤ cnt v vars h.choose) else v e

theorem counting_s (v : Expr → Bool) (vars : List Expr) (aux : List Char) (i j : Nat) :
    counting v vars aux (s aux i j) = decide (j ≤ cnt v vars i) := by
  unfold counting
  have h : IsAux aux (s aux i j) := ⟨i, j, rfl⟩
  rw [dif_pos h]
  have hs := h.choose_spec.choose_spec
  have : auxName aux i j = auxName aux h.choose h.choose_spec.choose := by
    simpa only [s, Expr.atom.injEq] using hs
  obtain ⟨_, h1, h2⟩ := auxName_inj this
  exact decide_eq_decide.2 (by
    have e1 : cnt v vars h.choose = cnt v vars i := congrArg _ h1.symm
    exact Iff.of_eq (congrArg₂ _ h2.symm e1))

theorem counting_other (v : Expr → Bool) (vars : List Expr) (aux : List Char) {e : Expr} (h : ¬ IsAux aux e) :
    counting v vars aux e = v e := by
  unfold counting; rw [dif_neg h]

theorem eval_fresh {v w : Expr → Bool} {aux : List Char} (hw : ∀ e, ¬ IsAux aux e → w e = v e) {x : Expr}
    (hx : ∀ a, IsAux aux a → ¬ Mentions a x) : x.eval w = x.eval v :=
  eval_congr fun a ha => hw a fun hi => hx a hi ha

theorem cnt_fresh {v w : Expr → Bool} {aux : List Char} (hw : ∀ e, ¬ IsAux aux e → w e = v e) {vars : List Expr}
    (hf : Fresh aux vars) : vars.countP (Expr.eval w) = vars.countP (Expr.eval v) :=
  List.countP_congr fun x hx => by rw [eval_fresh hw (hf x hx)]

theorem nth_mem {vars : List Expr} {i : Nat} (h1 : 1 ≤ i) (h2 : i ≤ vars.length) : nth vars i ∈ vars := by
  unfold nth
  rw [List.getD_eq_getElem?_getD, List.getElem?_eq_getElem (by omega : i - 1 < vars.length)]
  exact List.getElem_mem _

theorem cnt_mono (v : Expr → Bool) (vars : List Expr) {i j : Nat} (h : i ≤ j) : cnt v vars i ≤ cnt v vars j := by
  unfold cnt
  rw [show vars.take i = (vars.take j).take i by rw [List.take_take, Nat.min_eq_left h]]
  exact (List.take_sublist _ _).countP_le

/-- With few true formulas, the counting valuation satisfies the constraint. -/
theorem atMost_complete {v : Expr → Bool} {vars : List Expr} {k : Nat} {aux : List Char} (hf : Fresh aux vars)
    (h : vars.countP (Expr.eval v) ≤ k) : (atMost vars k aux).eval (counting v vars aux) = true := by
  by_cases hn : k ≥ vars.length
  · unfold atMost; rw [if_pos hn]; exact eval_tautology _
  have hw : ∀ e, ¬ IsAux aux e → counting v vars aux e = v e := fun e he => counting_other v vars aux he
  by_cases hk : k = 0
  · unfold atMost
    rw [if_neg hn, if_pos hk, eval_conj, List.all_eq_true]
    subst hk
    rw [Nat.le_zero, List.countP_eq_zero] at h
    intro e he
    obtain ⟨x, hx, rfl⟩ := List.mem_map.1 he
    rw [Expr.eval, eval_fresh hw (hf x hx), Bool.not_eq_true']
    exact Bool.eq_false_iff.2 (h x hx)
  rw [atMost_rows _ _ _ _ (by omega) (by omega)]
  have hx : ∀ i, 1 ≤ i → i ≤ vars.length → (nth vars i).eval (counting v vars aux) = (nth vars i).eval v :=
    fun i h1 h2 => eval_fresh hw (hf _ (nth_mem h1 h2))
  have step : ∀ i, 1 ≤ i → i ≤ vars.length → (nth vars i).eval v = true → cnt v vars i = cnt v vars (i - 1) + 1 := by
    intro i h1 h2 ht
    have := cnt_succ v vars (show i - 1 < vars.length by omega)
    rwa [show i - 1 + 1 = i by omega, if_pos ht] at this
  have hall : ∀ i, i ≤ vars.length → cnt v vars i ≤ k := fun i hi =>
    Nat.le_trans (cnt_mono v vars hi) (by rw [cnt_all]; exact h)
  constructor
  · rw [hx 1 (by omega) (by omega)]
    intro ht
    rw [counting_s, decide_eq_true_eq, step 1 (by omega) (by omega) ht]; omega
  · intro j h1 h2
    rw [counting_s, decide_eq_false_iff_not]
    have := cnt_succ v vars (show 0 < vars.length by omega)
    rw [cnt_zero] at this
    split at this <;> simp only [Nat.zero_add] at this <;> omega
  · intro i h1 h2
    rw [hx i (by omega) h2]
    intro ht
    rw [counting_s, decide_eq_true_eq, step i (by omega) h2 ht]; omega
  · intro i h1 h2
    rw [counting_s, counting_s, decide_eq_true_eq, decide_eq_true_eq]
    exact fun a => Nat.le_trans a (cnt_mono v vars (by omega))
  · intro i h1 h2 j h3 h4
    rw [hx i (by omega) h2, counting_s, counting_s, decide_eq_true_eq, decide_eq_true_eq]
    intro ht a
    rw [step i (by omega) h2 ht]; omega
  · intro i h1 h2 j h3 h4
    rw [counting_s, counting_s, decide_eq_true_eq, decide_eq_true_eq]
    exact fun a => Nat.le_trans a (cnt_mono v vars (by omega))
  · intro i h1 h2
    rw [hx i (by omega) h2, counting_s, decide_eq_false_iff_not]
    intro ht a
    have := step i (by omega) h2 ht
    have := hall i h2
    omega

theorem countP_not (v : Expr → Bool) (vars : List Expr) :
    (vars.map Expr.not).countP (Expr.eval v) + vars.countP (Expr.eval v) = vars.length := by
  induction vars with
  | nil => rfl
  | cons x vars ih =>
    rw [List.map_cons, List.countP_cons, List.countP_cons, List.length_cons]
    have : (Expr.not x).eval v = !x.eval v := rfl
    rw [this]
    rcases Bool.eq_false_or_eq_true (x.eval v) with e | e <;> rw [e] <;> simp only [Bool.not_true, Bool.not_false, if_true, Bool.false_eq_true, if_false] <;> omega

theorem fresh_not {aux : List Char} {vars : List Expr} (h : Fresh aux vars) : Fresh aux (vars.map Expr.not) := by
  intro x hx a ha hm
  obtain ⟨y, hy, rfl⟩ := List.mem_map.1 hx
  exact h y hy a ha hm

theorem atLeast_sound {v : Expr → Bool} {vars : List Expr} {k : Nat} {aux : List Char}
    (h : (atLeast vars k aux).eval v = true) : k ≤ vars.countP (Expr.eval v) := by
  unfold atLeast at h
  by_cases hk : k = 0
  · omega
  rw [if_neg hk] at h
  by_cases hn : k > vars.length
  · rw [if_pos hn, eval_contradiction] at h; cases h
  rw [if_neg hn] at h
  have := atMost_sound h
  have := countP_not v vars
  omega

/-- A valuation that satisfies the "at least" constraint. -/
noncomputable def countingNot (v : Expr → Bool) (vars : List Expr) (aux : List Char) : Expr → Bool :=
  counting v (vars.map Expr.not) aux

theorem atLeast_complete {v : Expr → Bool} {vars : List Expr} {k : Nat} {aux : List Char} (hf : Fresh aux vars)
    (h : k ≤ vars.countP (Expr.eval v)) : (atLeast vars k aux).eval (countingNot v vars aux) = true := by
  unfold atLeast
  by_cases hk : k = 0
  · rw [if_pos hk]; exact eval_tautology _
  rw [if_neg hk]
  have hle : vars.countP (Expr.eval v) ≤ vars.length := List.countP_le_length
  rw [if_neg (by omega)]
  refine atMost_complete (fresh_not hf) ?_
  have := countP_not v vars
  omega

/-! ### What the formulas mention -/

theorem mentions_foldl (a : Expr) (es : List Expr) (e : Expr) (h : Mentions a (es.foldl Expr.and e)) :
    Mentions a e ∨ ∃ x ∈ es, Mentions a x := by
  induction es generalizing e with
  | nil => exact Or.inl h
  | cons b es ih =>
    rcases ih _ h with h | ⟨x, hx, h⟩
    · rcases h with h | h
      · exact Or.inl h
      · exact Or.inr ⟨b, by simp, h⟩
    · exact Or.inr ⟨x, by simp [hx], h⟩

theorem mentions_tautology {a : Expr} (h : Mentions a tautology) : a = .atom trueName := by
  rcases h with h | h <;> exact h.symm

theorem mentions_contradiction {a : Expr} (h : Mentions a contradiction) : a = .atom falseName := by
  rcases h with h | h <;> exact h.symm

theorem mentions_conj {a : Expr} {es : List Expr} (h : Mentions a (conj es)) :
    a = .atom trueName ∨ ∃ x ∈ es, Mentions a x := by
  cases es with
  | nil => exact Or.inl (mentions_tautology h)
  | cons e es =>
    rcases mentions_foldl a es e h with h | ⟨x, hx, h⟩
    · exact Or.inr ⟨e, by simp, h⟩
    · exact Or.inr ⟨x, by simp [hx], h⟩

/-- The formula mentions the formulas' atoms, its auxiliary atoms, and the two reserved ones. -/
def Own (aux : List Char) (vars : List Expr) (a : Expr) : Prop :=
  a = .atom trueName ∨ a = .atom falseName ∨ IsAux aux a ∨ ∃ x ∈ vars, Mentions a x

theorem mentions_s {a : Expr} {aux : List Char} {i j : Nat} (h : Mentions a (s aux i j)) : IsAux aux a := ⟨i, j, h.symm⟩

theorem mentions_atMost {a : Expr} {aux : List Char} {vars : List Expr} {k : Nat}
    (h : Mentions a (atMost vars k aux)) : Own aux vars a := by
  unfold atMost at h
  by_cases hn : k ≥ vars.length
  · rw [if_pos hn] at h; exact Or.inl (mentions_tautology h)
  rw [if_neg hn] at h
  by_cases hk : k = 0
  · rw [if_pos hk] at h
    rcases mentions_conj h with h | ⟨x, hx, h⟩
    · exact Or.inl h
    · obtain ⟨y, hy, rfl⟩ := List.mem_map.1 hx
      exact Or.inr (Or.inr (Or.inr ⟨y, hy, h⟩))
  rw [if_neg hk] at h
  have hv : ∀ i, 1 ≤ i → i ≤ vars.length → Mentions a (nth vars i) → Own aux vars a := fun i h1 h2 h =>
    Or.inr (Or.inr (Or.inr ⟨_, nth_mem h1 h2, h⟩))
  have hs : ∀ {i j}, Mentions a (s aux i j) → Own aux vars a := fun h => Or.inr (Or.inr (Or.inl (mentions_s h)))
  rcases mentions_conj h with h | ⟨e, he, h⟩
  · exact Or.inl h
  rcases List.mem_append.1 he with he | he
  · unfold firstRow at he
    rcases List.mem_cons.1 he with rfl | he
    · rcases h with h | h
      · exact hv 1 (by omega) (by omega) h
      · exact hs h
    · obtain ⟨j, hj, rfl⟩ := List.mem_map.1 he
      exact hs h
  · obtain ⟨i, hi, he⟩ := List.mem_flatMap.1 he
    have hi' := List.mem_range'_1.1 hi
    have hvi := hv i (by omega) (by omega)
    unfold row at he
    rcases List.mem_append.1 he with he | he
    · rcases List.mem_append.1 he with he | he
      · simp only [List.mem_cons, List.not_mem_nil, or_false] at he
        rcases he with rfl | rfl
        · rcases h with h | h
          · exact hvi h
          · exact hs h
        · rcases h with h | h <;> exact hs h
      · obtain ⟨j, hj, he⟩ := List.mem_flatMap.1 he
        simp only [List.mem_cons, List.not_mem_nil, or_false] at he
        rcases he with rfl | rfl
        · rcases h with (h | h) | h
          · exact hvi h
          · exact hs h
          · exact hs h
        · rcases h with h | h <;> exact hs h
    · simp only [List.mem_cons, List.not_mem_nil, or_false] at he
      subst he
      rcases h with h | h
      · exact hvi h
      · exact hs h

theorem mentions_atLeast {a : Expr} {aux : List Char} {vars : List Expr} {k : Nat}
    (h : Mentions a (atLeast vars k aux)) : Own aux vars a := by
  unfold atLeast at h
  by_cases hk : k = 0
  · rw [if_pos hk] at h; exact Or.inl (mentions_tautology h)
  rw [if_neg hk] at h
  by_cases hn : k > vars.length
  · rw [if_pos hn] at h; exact Or.inr (Or.inl (mentions_contradiction h))
  rw [if_neg hn] at h
  rcases mentions_atMost h with h | h | h | ⟨x, hx, h⟩
  · exact Or.inl h
  · exact Or.inr (Or.inl h)
  · exact Or.inr (Or.inr (Or.inl h))
  · obtain ⟨y, hy, rfl⟩ := List.mem_map.1 hx
    exact Or.inr (Or.inr (Or.inr ⟨y, hy, h⟩))

end Verif.Proof.Card
