import Verif.Solve.IntervalLemmas

/-!
# C27: interval scheduling

`Schedule tasks machines f` (Verif.Solve.Interval): `f` maps every task to a machine below the limit, and tasks that have an
instant in common to different machines.  `activeAt tasks t` counts the tasks whose half-open interval contains `t`.
-/

namespace Verif.Props
open Verif.Solve.Interval

private theorem share_overlaps {a b : Interval}
    (h : ∃ t : Int, (a.start ≤ t ∧ t < a.stop) ∧ b.start ≤ t ∧ t < b.stop) : overlaps a b = true := by
  obtain ⟨t, h⟩ := h
  unfold overlaps
  rw [Bool.and_eq_true, decide_eq_true_eq, decide_eq_true_eq]
  omega

private theorem overlaps_comm (a b : Interval) : overlaps a b = overlaps b a := by
  unfold overlaps; rw [Bool.and_comm]

/-- The inner test of `is_valid_schedule`. -/
private theorem valid_unfold (tasks : List Interval) (machines : Nat) (a : List Nat) :
    isValidSchedule tasks machines a = true ↔ a.length = tasks.length ∧ (∀ m ∈ a, m < machines) ∧
      ∀ i j, i < j → j < tasks.length → a.getD i 0 = a.getD j 0 → overlaps (at_ tasks i) (at_ tasks j) = false := by
  unfold isValidSchedule
  by_cases hc : a.length ≠ tasks.length ∨ a.any (fun m => decide (m ≥ machines)) = true
  · rw [if_pos hc]
    constructor
    · intro h; cases h
    · rintro ⟨h1, h2, _⟩
      rcases hc with h | h
      · exact absurd h1 h
      · obtain ⟨m, hm, hge⟩ := List.any_eq_true.1 h
        have := h2 m hm
        rw [decide_eq_true_eq] at hge
        omega
  · rw [if_neg hc]
    rw [not_or, not_not] at hc
    have h2 : ∀ m ∈ a, m < machines := by
      intro m hm
      by_contra hge
      exact hc.2 (List.any_eq_true.2 ⟨m, hm, decide_eq_true (by omega)⟩)
    rw [List.all_eq_true]
    constructor
    · intro h
      refine ⟨hc.1, h2, ?_⟩
      intro i j hij hj he
      have := List.all_eq_true.1 (h i (List.mem_range.2 (by omega))) j (List.mem_range'_1.2 (by omega))
      rw [decide_eq_true he, Bool.true_and, Bool.not_eq_true'] at this
      exact this
    · rintro ⟨_, _, h⟩ i hi
      rw [List.all_eq_true]
      intro j hj
      have hj' := List.mem_range'_1.1 hj
      have hi' := List.mem_range.1 hi
      by_cases he : a.getD i 0 = a.getD j 0
      · rw [h i j (by omega) (by omega) he, Bool.and_false]; rfl
      · rw [decide_eq_false he]; rfl

/-- A schedule accepted by the checker is one. -/
theorem C27_valid_sound (tasks : List Interval) (machines : Nat) (a : List Nat)
    (h : isValidSchedule tasks machines a = true) :
    a.length = tasks.length ∧ Schedule tasks machines (fun i => a.getD i 0) := by
  obtain ⟨h1, h2, h3⟩ := (valid_unfold tasks machines a).1 h
  refine ⟨h1, ?_, ?_⟩
  · intro i hi
    apply h2
    show a.getD i 0 ∈ a
    rw [List.getD_eq_getElem?_getD, List.getElem?_eq_getElem (by omega)]
    exact List.getElem_mem _
  · intro i j hi hj hij hs he
    rw [← at_eq hi, ← at_eq hj] at hs
    rcases Nat.lt_or_gt_of_ne hij with hlt | hgt
    · have := h3 i j hlt hj he
      rw [share_overlaps hs] at this; cases this
    · have := h3 j i hgt hi he.symm
      rw [overlaps_comm, share_overlaps hs] at this; cases this

/-- And, when no task is empty, every schedule is accepted. -/
theorem C27_valid_complete (tasks : List Interval) (machines : Nat) (a : List Nat) (hne : NonEmpty tasks)
    (hl : a.length = tasks.length) (h : Schedule tasks machines (fun i => a.getD i 0)) :
    isValidSchedule tasks machines a = true := by
  rw [valid_unfold]
  refine ⟨hl, ?_, ?_⟩
  · intro m hm
    obtain ⟨i, hi, rfl⟩ := List.mem_iff_getElem.1 hm
    have := h.1 i (by omega)
    simpa [List.getD_eq_getElem?_getD, List.getElem?_eq_getElem hi] using this
  · intro i j hij hj he
    by_contra hov
    have hov' : overlaps (at_ tasks i) (at_ tasks j) = true := by simpa using hov
    rw [at_eq (by omega : i < tasks.length), at_eq hj] at hov'
    exact h.2 i j (by omega) hj (by omega)
      ((overlaps_iff (hne _ (List.getElem_mem _)) (hne _ (List.getElem_mem _))).1 hov') he

/-- `peak_concurrency` is the largest number of tasks active at one instant. -/
theorem C27_peak (tasks : List Interval) : (∀ t, activeAt tasks t ≤ peakConcurrency tasks) ∧
    (peakConcurrency tasks = 0 ∨ ∃ t, activeAt tasks t = peakConcurrency tasks) := peak_spec tasks

example : peakConcurrency [⟨0, 4⟩, ⟨1, 3⟩, ⟨3, 5⟩, ⟨2, 6⟩] = 3 := by decide +kernel

private theorem witness_pairs (tasks : List Interval) : ∀ w : List Nat, pairwiseOverlap tasks w = true ↔
    (∀ i ∈ w, i < tasks.length) ∧ w.Pairwise fun i j => overlaps (at_ tasks i) (at_ tasks j) = true := by
  intro w
  induction w with
  | nil => simp [pairwiseOverlap]
  | cons i w ih =>
    unfold pairwiseOverlap
    rw [Bool.and_eq_true, Bool.and_eq_true, ih, List.pairwise_cons, List.all_eq_true, decide_eq_true_eq]
    constructor
    · rintro ⟨⟨h1, h2⟩, h3, h4⟩
      refine ⟨?_, ?_, h4⟩
      · intro k hk
        rcases List.mem_cons.1 hk with rfl | hk
        · exact h1
        · exact h3 k hk
      · intro k hk
        have := h2 k hk
        rw [Bool.and_eq_true] at this
        exact this.2
    · rintro ⟨h1, h2, h3⟩
      refine ⟨⟨h1 i (by simp), ?_⟩, fun k hk => h1 k (by simp [hk]), h3⟩
      intro k hk
      rw [Bool.and_eq_true, decide_eq_true_eq]
      exact ⟨h1 k (by simp [hk]), h2 k hk⟩

/-- When the answer is "infeasible", the witness lists different tasks, the checker accepts it, and there is indeed no
schedule.  No assumption on the tasks. -/
theorem C27_infeasible (tasks : List Interval) (machines : Nat) (w : List Nat)
    (h : scheduleOrOverflow tasks machines = .infeasible w) :
    w.Nodup ∧ isOverflowWitness tasks machines w = true ∧ ∀ f, ¬ Schedule tasks machines f := by
  unfold scheduleOrOverflow at h
  cases hs : sweep machines (events tasks) [] with
  | none => rw [hs] at h; cases h
  | some w' =>
    rw [hs] at h
    simp only [Outcome.infeasible.injEq] at h
    subst h
    obtain ⟨P, e, Q, hev, hd, hw, hlen⟩ := sweep_some _ _ _ hs
    have hn : w'.Nodup := by
      rw [hw]; exact (active_spec (P ++ [e]) Q (by rw [hev]; simp)).1
    have hact : ∀ j ∈ w', j < tasks.length ∧ (at_ tasks j).start ≤ e.time ∧ e.time < (at_ tasks j).stop := by
      rw [hw]; exact active_start hev hd
    refine ⟨hn, ?_, ?_⟩
    · unfold isOverflowWitness
      rw [if_neg (by omega), witness_pairs]
      refine ⟨fun i hi => (hact i hi).1, ?_⟩
      rw [List.pairwise_iff_getElem]
      intro i j hi hj _
      exact share_overlaps ⟨e.time, (hact _ (List.getElem_mem hi)).2, (hact _ (List.getElem_mem hj)).2⟩
    · intro f hf
      have := clique_needs (f := f) hn (fun i hi => hf.1 i (hact i hi).1) (by
        intro i hi j hj hij
        have a1 := hact i hi
        have a2 := hact j hj
        refine hf.2 i j a1.1 a2.1 hij ⟨e.time, ?_⟩
        rw [← at_eq a1.1, ← at_eq a2.1]
        exact ⟨a1.2, a2.2⟩)
      omega

example : scheduleOrOverflow [⟨0, 4⟩, ⟨1, 3⟩, ⟨3, 5⟩, ⟨2, 6⟩] 2 = .infeasible [0, 1, 3] := by decide +kernel

/-- When the answer is "feasible" and no task is empty, the assignment is a schedule and the checker accepts it.
Missing for the full property: empty tasks (`C27_empty_task_fails`).  The lower bound on the starts is that of `i64`. -/
theorem C27_feasible_partial (tasks : List Interval) (machines : Nat) (a : List Nat) (hne : NonEmpty tasks)
    (hlow : ∀ t ∈ tasks, -2 ^ 63 ≤ t.start) (h : scheduleOrOverflow tasks machines = .feasible a) :
    isValidSchedule tasks machines a = true ∧ Schedule tasks machines (fun i => a.getD i 0) := by
  suffices hv : isValidSchedule tasks machines a = true from ⟨hv, (C27_valid_sound _ _ _ hv).2⟩
  unfold scheduleOrOverflow at h
  cases hs : sweep machines (events tasks) [] with
  | some w => rw [hs] at h; cases h
  | none =>
    rw [hs] at h
    simp only [Outcome.feasible.injEq] at h
    subst h
    have hpk : ∀ t, activeAt tasks t ≤ machines := by
      intro t
      rw [← active_at]
      exact sweep_none _ _ hs (by simp) _ _ (prefix_at _ (events_sorted tasks) t)
    have hg := greedy_inv hne hlow hpk
    have hord : ∀ j < tasks.length, j ∈ startOrder tasks := fun j hj =>
      (Verif.sortBy_perm _ _).mem_iff.2 (List.mem_range.2 hj)
    have hget : ∀ j < tasks.length, (greedyAssign tasks machines).getD j 0 =
        ((startOrder tasks).foldl (place tasks (max machines 1)) ⟨fun _ => -2 ^ 63, fun _ => 0⟩).assignment j := by
      intro j hj
      unfold greedyAssign
      rw [List.getD_eq_getElem?_getD, List.getElem?_map, List.getElem?_range hj]
      rfl
    rw [valid_unfold]
    refine ⟨by simp [greedyAssign], ?_, ?_⟩
    · intro m hm
      obtain ⟨j, hj, rfl⟩ := List.mem_map.1 hm
      have hj' := List.mem_range.1 hj
      have := (hg.free j (hord j hj')).1
      have hpos : 1 ≤ machines := by
        have h1 : at_ tasks j ∈ tasks := by rw [at_eq hj']; exact List.getElem_mem hj'
        have := le_activeAt (tasks := tasks) (t := (at_ tasks j).start) (l := [j]) (by simp) (by
          intro k hk
          rw [List.mem_singleton.1 hk]
          exact ⟨hj', Int.le_refl _, hne _ h1⟩)
        have := hpk (at_ tasks j).start
        simp only [List.length_singleton] at *
        omega
      omega
    · intro i j hij hj he
      rw [hget i (by omega), hget j hj] at he
      rcases hg.apart i (hord i (by omega)) j (hord j hj) (by omega) he with h | h
      · unfold overlaps
        rw [decide_eq_false (by omega : ¬ (at_ tasks j).start < (at_ tasks i).stop), Bool.and_false]
      · unfold overlaps
        rw [decide_eq_false (by omega : ¬ (at_ tasks i).start < (at_ tasks j).stop), Bool.false_and]

example : NonEmpty [⟨0, 4⟩, ⟨1, 3⟩, ⟨3, 5⟩, ⟨4, 6⟩] ∧
    scheduleOrOverflow [⟨0, 4⟩, ⟨1, 3⟩, ⟨3, 5⟩, ⟨4, 6⟩] 2 = .feasible [0, 1, 1, 0] := by
  refine ⟨?_, by decide +kernel⟩
  intro t ht
  simp only [List.mem_cons, List.not_mem_nil, or_false] at ht
  rcases ht with rfl | rfl | rfl | rfl <;> decide

/-- So the scheduler decides whether there is a schedule, and there is one exactly when the peak fits. -/
theorem C27_decides_partial (tasks : List Interval) (machines : Nat) (hne : NonEmpty tasks)
    (hlow : ∀ t ∈ tasks, -2 ^ 63 ≤ t.start) :
    ((∃ a, scheduleOrOverflow tasks machines = .feasible a) ↔ ∃ f, Schedule tasks machines f) ∧
    ((∃ f, Schedule tasks machines f) ↔ peakConcurrency tasks ≤ machines) := by
  have h1 : (∃ a, scheduleOrOverflow tasks machines = .feasible a) ↔ ∃ f, Schedule tasks machines f := by
    constructor
    · rintro ⟨a, h⟩
      exact ⟨_, (C27_feasible_partial tasks machines a hne hlow h).2⟩
    · rintro ⟨f, h⟩
      cases e : scheduleOrOverflow tasks machines with
      | feasible a => exact ⟨a, rfl⟩
      | infeasible w => exact absurd h ((C27_infeasible tasks machines w e).2.2 f)
  refine ⟨h1, ?_⟩
  constructor
  · rintro ⟨f, hf⟩
    rcases (C27_peak tasks).2 with h | ⟨t, h⟩
    · omega
    · rw [← h, ← idxAt_length]
      refine clique_needs (f := f) (idxAt_nodup tasks t) (fun i hi => hf.1 i (mem_idxAt.1 hi).1) ?_
      intro i hi j hj hij
      have a1 := mem_idxAt.1 hi
      have a2 := mem_idxAt.1 hj
      refine hf.2 i j a1.1 a2.1 hij ⟨t, ?_⟩
      rw [← at_eq a1.1, ← at_eq a2.1]
      exact ⟨a1.2, a2.2⟩
  · intro hp
    rw [← h1]
    cases e : scheduleOrOverflow tasks machines with
    | feasible a => exact ⟨a, rfl⟩
    | infeasible w =>
      exfalso
      unfold scheduleOrOverflow at e
      cases hs : sweep machines (events tasks) [] with
      | none => rw [hs] at e; cases e
      | some w' =>
        obtain ⟨P, ev, Q, hev, hd, hw, hlen⟩ := sweep_some _ _ _ hs
        have hn : w'.Nodup := by
          rw [hw]; exact (active_spec (P ++ [ev]) Q (by rw [hev]; simp)).1
        have := le_activeAt hn (by rw [hw]; exact active_start hev hd)
        have := (C27_peak tasks).1 ev.time
        omega

/-- An accepted overflow witness that names no task twice proves that there is no schedule, when no task is empty.
Missing for the full property: witnesses that repeat a task (`C27_repeated_witness_fails`). -/
theorem C27_witness_partial (tasks : List Interval) (machines : Nat) (w : List Nat) (hne : NonEmpty tasks)
    (hn : w.Nodup) (h : isOverflowWitness tasks machines w = true) : ∀ f, ¬ Schedule tasks machines f := by
  intro f hf
  unfold isOverflowWitness at h
  split at h
  · cases h
  · next hl =>
    rw [witness_pairs] at h
    have := clique_needs (f := f) hn (fun i hi => hf.1 i (h.1 i hi)) (by
      intro i hi j hj hij
      have key : overlaps (at_ tasks i) (at_ tasks j) = true := by
        obtain ⟨a, ha, rfl⟩ := List.mem_iff_getElem.1 hi
        obtain ⟨b, hb, rfl⟩ := List.mem_iff_getElem.1 hj
        have hab : a ≠ b := fun e => hij (by subst e; rfl)
        rcases Nat.lt_or_gt_of_ne hab with hlt | hgt
        · exact List.pairwise_iff_getElem.1 h.2 a b ha hb hlt
        · rw [overlaps_comm]; exact List.pairwise_iff_getElem.1 h.2 b a hb ha hgt
      have hi' := h.1 i hi
      have hj' := h.1 j hj
      rw [at_eq hi', at_eq hj', overlaps_iff (hne _ (List.getElem_mem _)) (hne _ (List.getElem_mem _))] at key
      exact hf.2 i j hi' hj' hij key)
    omega

example : isOverflowWitness [⟨0, 4⟩, ⟨1, 3⟩, ⟨3, 5⟩, ⟨2, 6⟩] 2 [0, 1, 3] = true ∧ [0, 1, 3].Nodup := by
  decide +kernel

/-- The witness checker counts a repeated task as several: one task on two machines "overflows". -/
theorem C27_repeated_witness_fails : isOverflowWitness [⟨0, 10⟩] 2 [0, 0, 0] = true ∧
    Schedule [⟨0, 10⟩] 2 (fun _ => 0) := by
  refine ⟨by decide +kernel, ?_, ?_⟩
  · intro i _; show 0 < 2; omega
  · intro i j hi hj hij
    simp only [List.length_singleton] at hi hj
    omega

/-- An empty task makes the greedy assignment forget that a machine is busy: the answer puts `[0, 10)` and `[6, 9)` on
the same machine, although a schedule exists. -/
theorem C27_empty_task_fails :
    scheduleOrOverflow [⟨0, 10⟩, ⟨0, 6⟩, ⟨5, 5⟩, ⟨6, 9⟩] 2 = .feasible [0, 1, 0, 0] ∧
    isValidSchedule [⟨0, 10⟩, ⟨0, 6⟩, ⟨5, 5⟩, ⟨6, 9⟩] 2 [0, 1, 0, 0] = false ∧
    ¬ Schedule [⟨0, 10⟩, ⟨0, 6⟩, ⟨5, 5⟩, ⟨6, 9⟩] 2 (fun i => [0, 1, 0, 0].getD i 0) ∧
    Schedule [⟨0, 10⟩, ⟨0, 6⟩, ⟨5, 5⟩, ⟨6, 9⟩] 2 (fun i => [0, 1, 0, 1].getD i 0) := by
  refine ⟨by decide +kernel, by decide +kernel, ?_, ?_, ?_⟩
  · intro h
    exact h.2 0 3 (by simp) (by simp) (by simp) ⟨7, by simp⟩ rfl
  · intro i hi
    have : i = 0 ∨ i = 1 ∨ i = 2 ∨ i = 3 := by simp at hi; omega
    rcases this with rfl | rfl | rfl | rfl <;> decide
  · intro i j hi hj hij
    have h1 : i = 0 ∨ i = 1 ∨ i = 2 ∨ i = 3 := by simp at hi; omega
    have h2 : j = 0 ∨ j = 1 ∨ j = 2 ∨ j = 3 := by simp at hj; omega
    rintro ⟨t, ht⟩
    rcases h1 with rfl | rfl | rfl | rfl <;> rcases h2 with rfl | rfl | rfl | rfl <;> simp at ht hij ⊢ <;> omega

end Verif.Props
