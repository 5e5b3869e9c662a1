import Verif.Sat.World
/-!
# Invariants of the clause-learning solver
-/

namespace Verif.Sat
open Verif.Proof

/-- The decision level of position `i` of a trail whose levels begin at `lim`. -/
def lv (lim : List Nat) (i : Nat) : Nat := lim.countP fun x => decide (x ≤ i)

theorem lv_nil (i : Nat) : lv [] i = 0 := rfl

theorem lv_le (lim : List Nat) (i : Nat) : lv lim i ≤ lim.length := List.countP_le_length

theorem lv_mono (lim : List Nat) {i j : Nat} (h : i ≤ j) : lv lim i ≤ lv lim j := by
  unfold lv
  apply List.countP_mono_left
  intro x _ hx
  simp only [decide_eq_true_eq] at hx ⊢
  omega

theorem lv_full {lim : List Nat} {i : Nat} (h : ∀ x ∈ lim, x ≤ i) : lv lim i = lim.length := by
  unfold lv
  rw [List.countP_eq_length]
  intro x hx
  simpa using h x hx

theorem lv_full_iff {lim : List Nat} {i : Nat} : lv lim i = lim.length ↔ ∀ x ∈ lim, x ≤ i := by
  unfold lv
  rw [List.countP_eq_length]
  simp

theorem lv_append (a b : List Nat) (i : Nat) : lv (a ++ b) i = lv a i + lv b i := by
  unfold lv
  rw [List.countP_append]

theorem lv_zero {lim : List Nat} {i : Nat} (h : ∀ x ∈ lim, i < x) : lv lim i = 0 := by
  unfold lv
  rw [List.countP_eq_zero]
  intro x hx
  have := h x hx
  simp
  omega

theorem lv_pos_of_mem {lim : List Nat} {i : Nat} (h : i ∈ lim) : 0 < lv lim i := by
  unfold lv
  rw [List.countP_pos_iff]
  exact ⟨i, h, by simp⟩

/-- Below the start of level `k + 1`, only the first `k` starts count. -/
theorem lv_take {lim : List Nat} (hs : lim.Pairwise (· < ·)) {k t i : Nat} (hk : lim[k]? = some t)
    (hi : i < t) : lv (lim.take k) i = lv lim i := by
  conv => rhs; rw [← List.take_append_drop k lim]
  rw [lv_append, lv_zero (lim := lim.drop k), Nat.add_zero]
  intro x hx
  obtain ⟨hlt, rfl⟩ := List.getElem?_eq_some_iff.1 hk
  rw [List.mem_iff_getElem] at hx
  obtain ⟨j, hj, rfl⟩ := hx
  rw [List.getElem_drop]
  rcases Nat.eq_zero_or_pos j with rfl | hj0
  · simpa using hi
  · have := List.pairwise_iff_getElem.1 hs k (k + j) hlt (by simp at hj; omega) (by omega)
    omega

theorem lv_lt_of {lim : List Nat} (hs : lim.Pairwise (· < ·)) {k t i : Nat} (hk : lim[k]? = some t)
    (hi : i < t) : lv lim i ≤ k := by
  rw [← lv_take hs hk hi]
  have := lv_le (lim.take k) i
  have := List.length_take_le k lim
  omega

theorem lv_gt_of {lim : List Nat} (hs : lim.Pairwise (· < ·)) {k t i : Nat} (hk : lim[k]? = some t)
    (hi : t ≤ i) : k < lv lim i := by
  obtain ⟨hlt, rfl⟩ := List.getElem?_eq_some_iff.1 hk
  have h : lv (lim.take (k + 1)) i = (lim.take (k + 1)).length := by
    apply lv_full
    intro x hx
    rw [List.mem_iff_getElem] at hx
    obtain ⟨j, hj, rfl⟩ := hx
    rw [List.getElem_take]
    rcases Nat.lt_or_ge j k with h | h
    · have := List.pairwise_iff_getElem.1 hs j k (by omega) hlt h
      omega
    · have : j = k := by simp at hj; omega
      subst this; exact hi
  have h2 : lv lim i = lv (lim.take (k + 1)) i + lv (lim.drop (k + 1)) i := by
    rw [← lv_append, List.take_append_drop]
  rw [h, List.length_take] at h2
  omega

/-- Everything about a solver state except its watch lists. -/
structure Core (F : List Clause) (S : Solver) : Prop where
  nodup : (S.trail.map Lit.var).Nodup
  val : ∀ v b, S.value v = some b ↔ (⟨v, b⟩ : Lit) ∈ S.trail
  rng : ∀ l ∈ S.trail, l.var < S.n
  limS : S.lim.Pairwise (· < ·)
  limB : ∀ x ∈ S.lim, x < S.trail.length
  lev : ∀ i l, S.trail[i]? = some l → S.level l.var = lv S.lim i
  qle : S.qhead ≤ S.trail.length
  limQ : ∀ x ∈ S.lim, x ≤ S.qhead
  whyN : ∀ i l, S.trail[i]? = some l → 0 < lv S.lim i → S.reason l.var = none → i ∈ S.lim
  whyC : ∀ i l ci, S.trail[i]? = some l → 0 < lv S.lim i → S.reason l.var = some ci →
    ∃ c, S.clauses[ci]? = some c ∧ l ∈ c ∧ ∀ q ∈ c, q ≠ l → q.negated ∈ S.trail.take i
  zeroU : ∀ i l, S.trail[i]? = some l → lv S.lim i = 0 → ∀ P, World (F ++ S.log) P → P l
  clsU : ∀ c ∈ S.clauses, Acts (F ++ S.log) c
  clsR : ∀ c ∈ S.clauses, ∀ l ∈ c, l.var < S.n
  clsN : ∀ c ∈ S.clauses, c.Nodup
  clsT : ∀ c ∈ S.clauses, ∀ l ∈ c, l.negated ∉ c
  logU : Derived F S.log
  logR : ∀ c ∈ S.log, ∀ l ∈ c, l.var < S.n
  empU : S.empty = true → NoWorld (F ++ S.log)
  heapO : ∀ v < S.n, S.value v = none → v ∈ S.heap
  heapR : ∀ v ∈ S.heap, v < S.n

section
variable {F : List Clause} {S : Solver}

/-! What the four fields about worlds say of models. -/

theorem Core.zero (h : Core F S) (i : Nat) (l : Lit) (hi : S.trail[i]? = some l) (h0 : lv S.lim i = 0)
    (τ : Nat → Bool) (hτ : Models τ F) : l.holds τ := h.zeroU i l hi h0 _ (h.logU.world hτ)

theorem Core.cls (h : Core F S) (c : Clause) (hc : c ∈ S.clauses) : Entails F c :=
  fun τ hτ => (h.clsU c hc).upEnt.entails τ (h.logU.models hτ)

theorem Core.log (h : Core F S) (c : Clause) (hc : c ∈ S.log) : Entails F c :=
  fun _ hτ => h.logU.models hτ c (List.mem_append_right _ hc)

theorem Core.emp (h : Core F S) (he : S.empty = true) : ¬ Satisfiable F := (h.empU he).unsat h.logU

theorem lit_eta (l : Lit) : (⟨l.var, l.pos⟩ : Lit) = l := rfl

theorem lit_eta_neg (l : Lit) : (⟨l.var, !l.pos⟩ : Lit) = l.negated := rfl

theorem Core.val_true (h : Core F S) (l : Lit) : S.val l = some true ↔ l ∈ S.trail := by
  rw [← lit_eta l, ← h.val]
  unfold Solver.val
  cases hv : S.value l.var with
  | none => simp
  | some b => cases b <;> cases hp : l.pos <;> simp

theorem Core.val_false (h : Core F S) (l : Lit) : S.val l = some false ↔ l.negated ∈ S.trail := by
  rw [← lit_eta_neg l, ← h.val]
  unfold Solver.val
  cases hv : S.value l.var with
  | none => simp
  | some b => cases b <;> cases hp : l.pos <;> simp

theorem val_none (S : Solver) (l : Lit) : S.val l = none ↔ S.value l.var = none := by
  unfold Solver.val
  simp

theorem Core.unset (h : Core F S) {v : Nat} : S.value v = none ↔ ∀ l ∈ S.trail, l.var ≠ v := by
  constructor
  · rintro hv l hl rfl
    rw [← lit_eta l, ← h.val, hv] at hl
    cases hl
  · intro hn
    cases hv : S.value v with
    | none => rfl
    | some b => exact absurd rfl (hn _ ((h.val v b).1 hv))

theorem Core.idx (h : Core F S) {i j : Nat} {l m : Lit} (hi : S.trail[i]? = some l)
    (hj : S.trail[j]? = some m) (e : l.var = m.var) : i = j := by
  obtain ⟨hi', rfl⟩ := List.getElem?_eq_some_iff.1 hi
  obtain ⟨hj', rfl⟩ := List.getElem?_eq_some_iff.1 hj
  have hn := List.pairwise_iff_getElem.1 h.nodup
  rcases Nat.lt_trichotomy i j with hij | hij | hij
  · exact (hn i j (by simpa using hi') (by simpa using hj') hij (by simpa using e)).elim
  · exact hij
  · exact (hn j i (by simpa using hj') (by simpa using hi') hij (by simpa using e.symm)).elim

theorem Core.uniq (h : Core F S) {l m : Lit} (hl : l ∈ S.trail) (hm : m ∈ S.trail)
    (e : l.var = m.var) : l = m := by
  obtain ⟨i, hi⟩ := List.mem_iff_getElem?.1 hl
  obtain ⟨j, hj⟩ := List.mem_iff_getElem?.1 hm
  have := h.idx hi hj e
  subst this
  rw [hi] at hj
  exact Option.some.inj hj

theorem Core.not_both (h : Core F S) {l : Lit} (hl : l ∈ S.trail) : l.negated ∉ S.trail := by
  intro hn
  exact Lit.negated_ne l (h.uniq hn hl rfl)

theorem mem_take_iff {α : Type} {l : List α} {i : Nat} {x : α} :
    x ∈ l.take i ↔ ∃ j < i, l[j]? = some x := by
  rw [List.mem_iff_getElem?]
  constructor
  · rintro ⟨j, hj⟩
    rw [List.getElem?_take] at hj
    split at hj
    · exact ⟨j, by assumption, hj⟩
    · cases hj
  · rintro ⟨j, hj, e⟩
    exact ⟨j, by rw [List.getElem?_take, if_pos hj, e]⟩

theorem Core.level_le (h : Core F S) {l : Lit} (hl : l ∈ S.trail) : S.level l.var ≤ S.lim.length := by
  obtain ⟨i, hi⟩ := List.mem_iff_getElem?.1 hl
  rw [h.lev i l hi]
  exact lv_le _ _

theorem Core.level_pending (h : Core F S) {i : Nat} {l : Lit} (hi : S.trail[i]? = some l)
    (hq : S.qhead ≤ i) : S.level l.var = S.lim.length := by
  rw [h.lev i l hi]
  exact lv_full fun x hx => Nat.le_trans (h.limQ x hx) hq

/-- All of a trail without decisions is in every world. -/
theorem Core.zero_allU (h : Core F S) (hl : S.lim = []) : ∀ l ∈ S.trail, ∀ P, World (F ++ S.log) P → P l := by
  intro l hm
  obtain ⟨i, hi⟩ := List.mem_iff_getElem?.1 hm
  exact h.zeroU i l hi (by rw [hl]; rfl)

/-- All of a trail without decisions holds in every model. -/
theorem Core.zero_all (h : Core F S) (hl : S.lim = []) : ∀ l ∈ S.trail, ∀ τ, Models τ F → l.holds τ := by
  intro l hm
  obtain ⟨i, hi⟩ := List.mem_iff_getElem?.1 hm
  exact h.zero i l hi (by rw [hl]; rfl)

/-- A false clause without decisions refutes the formula, and unit propagation sees it. -/
theorem Core.refuted (h : Core F S) (hl : S.lim = []) {c : Clause} (hc : c ∈ S.clauses)
    (hf : ∀ q ∈ c, q.negated ∈ S.trail) : NoWorld (F ++ S.log) :=
  fun P hP => (h.clsU c hc).conf P hP fun q hq => h.zero_allU hl _ (hf q hq) P hP

theorem upd_same {α β : Type} [DecidableEq α] (f : α → β) (a : α) (b : β) : upd f a b a = b := by
  simp [upd]

theorem upd_ne {α β : Type} [DecidableEq α] (f : α → β) {a x : α} (b : β) (h : x ≠ a) :
    upd f a b x = f x := by
  simp [upd, h]

theorem getElem?_snoc {α : Type} {l : List α} {x y : α} {i : Nat} :
    (l ++ [x])[i]? = some y ↔ l[i]? = some y ∨ (i = l.length ∧ x = y) := by
  rw [List.getElem?_append]
  split
  · rename_i h
    constructor
    · exact .inl
    · rintro (h' | ⟨rfl, _⟩)
      · exact h'
      · omega
  · rename_i h
    rw [List.getElem?_singleton]
    have : l[i]? = none := by simp; omega
    rw [this]
    split
    · rename_i h2
      constructor
      · intro e; exact .inr ⟨by omega, Option.some.inj e⟩
      · rintro (e | ⟨_, rfl⟩)
        · cases e
        · rfl
    · rename_i h2
      constructor
      · intro e; cases e
      · rintro (e | ⟨rfl, _⟩)
        · cases e
        · omega

/-- What `enqueue` needs besides the literal being unset. -/
def ReasonOK (S : Solver) (l : Lit) : Option Nat → Prop
  | none => S.lim.getLast? = some S.trail.length
  | some ci => ∃ c, S.clauses[ci]? = some c ∧ l ∈ c ∧ ∀ q ∈ c, q ≠ l → q.negated ∈ S.trail

/-- Everything but the bound of the level starts, which a decision breaks for a moment. -/
theorem Core.enqueue_aux {S S' : Solver} (h : Core F S) {l : Lit} {ci : Nat}
    (hu : S.value l.var = none) (hr : l.var < S.n)
    (hc : ∃ c, S.clauses[ci]? = some c ∧ l ∈ c ∧ ∀ q ∈ c, q ≠ l → q.negated ∈ S.trail)
    (hS : S' = S.enqueue l (some ci)) : Core F S' := by
  subst hS
  have hfresh : ∀ m ∈ S.trail, m.var ≠ l.var := h.unset.1 hu
  have hold : ∀ {i : Nat} {m : Lit}, S.trail[i]? = some m → m.var ≠ l.var := fun hi =>
    hfresh _ (List.mem_of_getElem? hi)
  refine
    { nodup := ?_, val := ?_, rng := ?_, limS := h.limS, limB := ?_, lev := ?_, qle := ?_, limQ := h.limQ,
      whyN := ?_, whyC := ?_, zeroU := ?_, clsU := h.clsU, clsR := h.clsR, clsN := h.clsN, clsT := h.clsT, logU := h.logU, logR := h.logR,
      empU := h.empU, heapO := ?_, heapR := h.heapR }
  · show ((S.trail ++ [l]).map Lit.var).Nodup
    rw [List.map_append, List.nodup_append]
    refine ⟨h.nodup, by simp, ?_⟩
    intro a ha b hb
    obtain ⟨m, hm, rfl⟩ := List.mem_map.1 ha
    simp at hb
    subst hb
    exact hfresh m hm
  · intro v b
    show upd S.value l.var (some l.pos) v = some b ↔ _ ∈ S.trail ++ [l]
    by_cases hv : v = l.var
    · subst hv
      rw [upd_same, List.mem_append]
      constructor
      · intro e; cases e; exact .inr (by simp)
      · rintro (e | e)
        · exact absurd rfl (hfresh ⟨l.var, b⟩ e)
        · simp at e; rw [← e]
    · rw [upd_ne _ _ hv, h.val, List.mem_append]
      constructor
      · exact .inl
      · rintro (e | e)
        · exact e
        · simp at e; rw [← e] at hv; exact absurd rfl hv
  · intro m hm
    rcases List.mem_append.1 hm with hm | hm
    · exact h.rng m hm
    · simp at hm; subst hm; exact hr
  · intro x hx
    have := h.limB x hx
    show x < (S.trail ++ [l]).length
    simp; omega
  · intro i m hi
    rcases getElem?_snoc.1 hi with hi | ⟨rfl, rfl⟩
    · show upd S.level l.var S.lim.length m.var = _
      rw [upd_ne _ _ (hold hi)]
      exact h.lev i m hi
    · show upd S.level l.var S.lim.length l.var = _
      rw [upd_same]
      exact (lv_full fun x hx => Nat.le_of_lt (h.limB x hx)).symm
  · show S.qhead ≤ (S.trail ++ [l]).length
    have := h.qle
    simp; omega
  · intro i m hi h0 hn
    rcases getElem?_snoc.1 hi with hi | ⟨rfl, rfl⟩
    · have hn' : upd S.reason l.var (some ci) m.var = none := hn
      rw [upd_ne _ _ (hold hi)] at hn'
      exact h.whyN i m hi h0 hn'
    · have hn' : upd S.reason l.var (some ci) l.var = none := hn
      rw [upd_same] at hn'
      cases hn'
  · intro i m cj hi h0 hn
    have htake : ∀ j ≤ S.trail.length, (S.enqueue l (some ci)).trail.take j = S.trail.take j := by
      intro j hj
      show (S.trail ++ [l]).take j = _
      rw [List.take_append_of_le_length hj]
    rcases getElem?_snoc.1 hi with hi | ⟨rfl, rfl⟩
    · have hn' : upd S.reason l.var (some ci) m.var = some cj := hn
      rw [upd_ne _ _ (hold hi)] at hn'
      rw [htake i (by have := (List.getElem?_eq_some_iff.1 hi).1; omega)]
      exact h.whyC i m cj hi h0 hn'
    · have hn' : upd S.reason l.var (some ci) l.var = some cj := hn
      rw [upd_same] at hn'
      cases hn'
      rw [htake _ (Nat.le_refl _), List.take_length]
      exact hc
  · intro i m hi h0
    rcases getElem?_snoc.1 hi with hi | ⟨rfl, rfl⟩
    · exact h.zeroU i m hi h0
    · have hlim : S.lim = [] := by
        have : lv S.lim S.trail.length = S.lim.length := lv_full fun x hx => Nat.le_of_lt (h.limB x hx)
        have h0' : lv S.lim S.trail.length = 0 := h0
        rw [this] at h0'
        exact List.length_eq_zero_iff.1 h0'
      intro P hP
      obtain ⟨c, hc1, hc2, hc3⟩ := hc
      exact (h.clsU c (List.mem_of_getElem? hc1)).unit P hP _ hc2 fun q hq e =>
        h.zero_allU hlim _ (hc3 q hq e) P hP
  · intro v hv hn
    have hn' : upd S.value l.var (some l.pos) v = none := hn
    by_cases e : v = l.var
    · subst e; rw [upd_same] at hn'; cases hn'
    · rw [upd_ne _ _ e] at hn'
      exact h.heapO v hv hn'

theorem Core.enqueue (h : Core F S) {l : Lit} {ci : Nat} (hu : S.value l.var = none) (hr : l.var < S.n)
    (hc : ∃ c, S.clauses[ci]? = some c ∧ l ∈ c ∧ ∀ q ∈ c, q ≠ l → q.negated ∈ S.trail) :
    Core F (S.enqueue l (some ci)) := h.enqueue_aux hu hr hc rfl

theorem Core.decide (h : Core F S) {l : Lit} (hu : S.value l.var = none) (hr : l.var < S.n)
    (hq : S.qhead = S.trail.length) : Core F (S.decide l) := by
  have hfresh : ∀ m ∈ S.trail, m.var ≠ l.var := h.unset.1 hu
  have hold : ∀ {i : Nat} {m : Lit}, S.trail[i]? = some m → m.var ≠ l.var := fun hi =>
    hfresh _ (List.mem_of_getElem? hi)
  have hlv : ∀ i < S.trail.length, lv (S.lim ++ [S.trail.length]) i = lv S.lim i := by
    intro i hi
    rw [lv_append, lv_zero (lim := [S.trail.length]), Nat.add_zero]
    intro x hx; simp at hx; omega
  have hlt : ∀ {i : Nat} {m : Lit}, S.trail[i]? = some m → i < S.trail.length := fun hi =>
    (List.getElem?_eq_some_iff.1 hi).1
  have hlast : lv (S.lim ++ [S.trail.length]) S.trail.length = S.lim.length + 1 := by
    rw [lv_full]
    · simp
    · intro x hx
      rcases List.mem_append.1 hx with hx | hx
      · exact Nat.le_of_lt (h.limB x hx)
      · simp at hx; omega
  refine
    { nodup := ?_, val := ?_, rng := ?_, limS := ?_, limB := ?_, lev := ?_, qle := ?_, limQ := ?_,
      whyN := ?_, whyC := ?_, zeroU := ?_, clsU := h.clsU, clsR := h.clsR, clsN := h.clsN, clsT := h.clsT, logU := h.logU, logR := h.logR,
      empU := h.empU, heapO := ?_, heapR := h.heapR }
  · show ((S.trail ++ [l]).map Lit.var).Nodup
    rw [List.map_append, List.nodup_append]
    refine ⟨h.nodup, by simp, ?_⟩
    intro a ha b hb
    obtain ⟨m, hm, rfl⟩ := List.mem_map.1 ha
    simp at hb
    subst hb
    exact hfresh m hm
  · intro v b
    show upd S.value l.var (some l.pos) v = some b ↔ _ ∈ S.trail ++ [l]
    by_cases hv : v = l.var
    · subst hv
      rw [upd_same, List.mem_append]
      constructor
      · intro e; cases e; exact .inr (by simp)
      · rintro (e | e)
        · exact absurd rfl (hfresh ⟨l.var, b⟩ e)
        · simp at e; rw [← e]
    · rw [upd_ne _ _ hv, h.val, List.mem_append]
      constructor
      · exact .inl
      · rintro (e | e)
        · exact e
        · simp at e; rw [← e] at hv; exact absurd rfl hv
  · intro m hm
    rcases List.mem_append.1 hm with hm | hm
    · exact h.rng m hm
    · simp at hm; subst hm; exact hr
  · show (S.lim ++ [S.trail.length]).Pairwise (· < ·)
    rw [List.pairwise_append]
    refine ⟨h.limS, by simp, ?_⟩
    intro a ha b hb
    simp at hb; subst hb
    exact h.limB a ha
  · intro x hx
    show x < (S.trail ++ [l]).length
    rcases List.mem_append.1 hx with hx | hx
    · have := h.limB x hx
      simp; omega
    · simp at hx; simp; omega
  · intro i m hi
    show upd S.level l.var (S.lim ++ [S.trail.length]).length m.var = lv (S.lim ++ [S.trail.length]) i
    rcases getElem?_snoc.1 hi with hi | ⟨rfl, rfl⟩
    · rw [upd_ne _ _ (hold hi), hlv i (hlt hi)]
      exact h.lev i m hi
    · show upd S.level l.var (S.lim ++ [S.trail.length]).length l.var = lv (S.lim ++ [S.trail.length]) S.trail.length
      rw [upd_same, hlast]; simp
  · show S.qhead ≤ (S.trail ++ [l]).length
    have := h.qle
    simp; omega
  · intro x hx
    show x ≤ S.qhead
    rcases List.mem_append.1 hx with hx | hx
    · exact h.limQ x hx
    · simp at hx; omega
  · intro i m hi h0 hn
    show i ∈ S.lim ++ [S.trail.length]
    rcases getElem?_snoc.1 hi with hi | ⟨e, rfl⟩
    · have hn' : upd S.reason l.var none m.var = none := hn
      rw [upd_ne _ _ (hold hi)] at hn'
      have h0' : 0 < lv (S.lim ++ [S.trail.length]) i := h0
      rw [hlv i (hlt hi)] at h0'
      exact List.mem_append_left _ (h.whyN i m hi h0' hn')
    · have e' : i = S.trail.length := e
      subst e'
      simp
  · intro i m cj hi h0 hn
    rcases getElem?_snoc.1 hi with hi | ⟨e, rfl⟩
    · have hn' : upd S.reason l.var none m.var = some cj := hn
      rw [upd_ne _ _ (hold hi)] at hn'
      have h0' : 0 < lv (S.lim ++ [S.trail.length]) i := h0
      rw [hlv i (hlt hi)] at h0'
      have : (S.decide l).trail.take i = S.trail.take i := by
        show (S.trail ++ [l]).take i = _
        rw [List.take_append_of_le_length (Nat.le_of_lt (hlt hi))]
      rw [this]
      exact h.whyC i m cj hi h0' hn'
    · have hn' : upd S.reason l.var none l.var = some cj := hn
      rw [upd_same] at hn'
      cases hn'
  · intro i m hi h0
    have h0' : lv (S.lim ++ [S.trail.length]) i = 0 := h0
    rcases getElem?_snoc.1 hi with hi | ⟨e, rfl⟩
    · rw [hlv i (hlt hi)] at h0'
      exact h.zeroU i m hi h0'
    · have e' : i = S.trail.length := e
      subst e'
      rw [hlast] at h0'
      exact absurd h0' (Nat.succ_ne_zero _)
  · intro v hv hn
    have hn' : upd S.value l.var (some l.pos) v = none := hn
    by_cases e : v = l.var
    · subst e; rw [upd_same] at hn'; cases hn'
    · rw [upd_ne _ _ e] at hn'
      exact h.heapO v hv hn'

/-- Rewriting clauses into permutations keeps the core. -/
theorem Core.setClause (h : Core F S) {ci : Nat} {c c' : Clause} (hc : S.clauses[ci]? = some c)
    (hp : c'.Perm c) : Core F { S with clauses := S.clauses.set ci c' } := by
  have hmem : ∀ d ∈ S.clauses.set ci c', d ∈ S.clauses ∨ d = c' := by
    intro d hd
    exact (List.mem_or_eq_of_mem_set hd)
  have hcm := List.mem_of_getElem? hc
  refine
    { nodup := h.nodup, val := h.val, rng := h.rng, limS := h.limS, limB := h.limB, lev := h.lev,
      qle := h.qle, limQ := h.limQ, whyN := h.whyN, whyC := ?_, zeroU := h.zeroU, clsU := ?_, clsR := ?_,
      clsN := ?_, clsT := ?_, logU := h.logU, logR := h.logR, empU := h.empU, heapO := h.heapO, heapR := h.heapR }
  · intro i l cj hi h0 hr
    obtain ⟨d, hd, h1, h2⟩ := h.whyC i l cj hi h0 hr
    show ∃ c_1, (S.clauses.set ci c')[cj]? = some c_1 ∧ _
    by_cases e : ci = cj
    · subst e
      rw [hc] at hd; cases hd
      refine ⟨c', ?_, hp.mem_iff.2 h1, fun q hq => h2 q (hp.mem_iff.1 hq)⟩
      rw [List.getElem?_set_self (List.getElem?_eq_some_iff.1 hc).1]
    · exact ⟨d, by rw [List.getElem?_set_ne e, hd], h1, h2⟩
  · intro d hd
    rcases hmem d hd with hd | rfl
    · exact h.clsU d hd
    · exact (h.clsU c hcm).congr fun _ => hp.mem_iff
  · intro d hd
    rcases hmem d hd with hd | rfl
    · exact h.clsR d hd
    · exact fun q hq => h.clsR c hcm q (hp.mem_iff.1 hq)
  · intro d hd
    rcases hmem d hd with hd | rfl
    · exact h.clsN d hd
    · exact hp.nodup_iff.2 (h.clsN c hcm)
  · intro d hd
    rcases hmem d hd with hd | rfl
    · exact h.clsT d hd
    · exact fun l hl hn => h.clsT c hcm l (hp.mem_iff.1 hl) (hp.mem_iff.1 hn)

/-- Watch lists do not matter to the core. -/
theorem Core.setWatches (h : Core F S) (W : Lit → List Watcher) : Core F { S with watches := W } :=
  { nodup := h.nodup, val := h.val, rng := h.rng, limS := h.limS, limB := h.limB, lev := h.lev,
    qle := h.qle, limQ := h.limQ, whyN := h.whyN, whyC := h.whyC, zeroU := h.zeroU, clsU := h.clsU,
    clsR := h.clsR, clsN := h.clsN, clsT := h.clsT, logU := h.logU, logR := h.logR, empU := h.empU, heapO := h.heapO, heapR := h.heapR }

end

end Verif.Sat
