import Verif.Sched.Replay
/-!
# A seeded run never panics; the order in which ready tasks are picked
-/

namespace Verif.Sched
variable {B : Type} {poll : B → Ctx → Step B × B} {prioOf : B → Nat}

/-- The chooser draws from a seed. -/
def Seeded (s : State B) : Prop := ∃ rng seed cs, s.chooser = .record rng seed cs

theorem below_lt (rng n : Nat) (h : 0 < n) : (below rng n).1 < n := by
  unfold below
  split
  · exact h
  · exact Nat.mod_lt _ h

theorem seeded_decide {s : State B} (h : Seeded s) (k : Kind) (n : Nat) (hn : 0 < n) :
    (s.decide k n).1 < n ∧ ∃ ch, (s.decide k n).2 = { s with chooser := ch } ∧ Seeded ({ s with chooser := ch } : State B) := by
  obtain ⟨rng, seed, cs, h⟩ := h
  simp only [State.decide, h, Chooser.decide]
  exact ⟨below_lt _ _ hn, _, rfl, _, _, _, rfl⟩

theorem bestFrom_lt (prio : Nat → Nat) : ∀ (l : List Nat) (i best pri n : Nat), best < n → i + l.length ≤ n →
    State.bestFrom prio l i best pri < n := by
  intro l
  induction l with
  | nil => intro i best pri n h _; exact h
  | cons t ts ih =>
    intro i best pri n h hl
    simp only [List.length_cons] at hl
    unfold State.bestFrom
    split
    · exact ih _ _ _ _ (by omega) (by omega)
    · exact ih _ _ _ _ h (by omega)

theorem seeded_pick {s : State B} (h : Seeded s) {t0 : Nat} {ts : List Nat} (hr : s.ready = t0 :: ts) :
    ∃ i ch t, s.pickIndex.1 = i ∧ s.ready[i]? = some t ∧ s.pickReady = (some t, { s with chooser := ch, ready := s.ready.eraseIdx i }) := by
  have hlen : 0 < s.ready.length := by rw [hr]; simp
  have key : s.pickIndex.1 < s.ready.length ∧ ∃ ch, s.pickIndex.2 = { s with chooser := ch } := by
    unfold State.pickIndex
    split
    · exact ⟨hlen, s.chooser, rfl⟩
    · exact ⟨hlen, s.chooser, rfl⟩
    · exact ⟨by simp only; omega, s.chooser, rfl⟩
    · obtain ⟨a, ch, b, _⟩ := seeded_decide h .taskPick s.ready.length hlen
      exact ⟨a, ch, b⟩
    · split
      · exact ⟨hlen, s.chooser, rfl⟩
      · next t ts h => exact ⟨bestFrom_lt _ _ _ _ _ _ (by omega) (by rw [h]; simp; omega), s.chooser, rfl⟩
  obtain ⟨k1, ch, k2⟩ := key
  refine ⟨_, ch, s.ready[s.pickIndex.1], rfl, List.getElem?_eq_getElem k1, ?_⟩
  unfold State.pickReady State.removeReady
  rw [k2]
  simp only [List.getElem?_eq_getElem k1]

theorem seeded_drawOrder (n : Nat) : ∀ (pool : List Timer) (s : State B), Seeded s → pool.length = n →
    s.crashed = false → (State.drawOrder n pool s).2.crashed = false := by
  induction n with
  | zero => intro pool s _ _ h; exact h
  | succ n ih =>
    intro pool s hs hl hc
    obtain ⟨a, ch, b, c⟩ := seeded_decide hs .timerTieBreak pool.length (by omega)
    unfold State.drawOrder
    rw [List.getElem?_eq_getElem a]
    simp only
    rw [b]
    exact ih _ _ c (by rw [List.length_eraseIdx_of_lt a, hl]; rfl) hc

theorem seeded_select {s : State B} {x : Nat} {arms : List Arm} (hs : Seeded s) (h : Pre s x (.select arms))
    (hok : StepOk s x (.select arms)) (hc : s.crashed = false) : (s.doSelect x arms).crashed = false := by
  unfold State.doSelect
  have hany : ¬ arms.any s.unknownArm = true := by
    rw [List.any_eq_true]
    rintro ⟨a, ha, hb⟩
    cases a with
    | recv c =>
      have := hok.1 c ha
      simp only [State.unknownArm, Option.isNone_iff_eq_none] at hb
      rw [hb] at this; cases this
    | timeout d => cases hb
  rw [if_neg hany]
  cases hr : s.readyArms 0 arms with
  | nil => exact (select_park h hok hr rfl).2.trans hc
  | cons i is =>
    simp only
    have key : ∃ w ch, s.pickArm (i :: is) = (some w, { s with chooser := ch }) ∧ w ∈ i :: is := by
      unfold State.pickArm
      split
      · exact ⟨i, s.chooser, rfl, by simp⟩
      · obtain ⟨a, ch, b, _⟩ := seeded_decide hs .selectWinner (i :: is).length (by simp)
        refine ⟨(i :: is)[(s.decide .selectWinner (i :: is).length).1], ch, ?_, List.getElem_mem _⟩
        rw [List.getElem?_eq_getElem a, b]
    obtain ⟨w, ch, k1, k2⟩ := key
    rw [k1]
    simp only
    rw [← hr] at k2
    obtain ⟨j, c, e1, e2, e3⟩ := readyArms_mem arms 0 w k2
    rw [Nat.zero_add] at e1
    subst e1
    exact (select_win (h.chooser ch) (hok.1 c (List.mem_of_getElem? e2)) e2 e3).2.trans hc

theorem seeded_process {s : State B} {x : Nat} {st : Step B} (hs : Seeded s) (h : Pre s x st)
    (hok : StepOk s x st) (hc : s.crashed = false) : (s.process prioOf x st).crashed = false := by
  cases st with
  | yield => exact (yield_inv h).2.trans hc
  | await u => exact (doAwait_inv h).2.trans hc
  | abort u => exact (abort_inv h hok rfl).2.trans hc
  | close c => exact (close_inv h hok rfl).2.trans hc
  | exit v => exact (exit_inv h rfl).2.trans hc
  | spawn b => exact (spawn_inv h rfl).2.trans hc
  | newChan cap => exact (newChan_inv h rfl).2.trans hc
  | send c p => exact (doSend_inv h hok).2.trans hc
  | trySend c p => exact (doTrySend_inv h hok).2.trans hc
  | recv c => exact (doRecv_inv h hok).2.trans hc
  | tryRecv c => exact (doTryRecv_inv h hok).2.trans hc
  | sleep d =>
    have hd : s.clock + d < 2 ^ 64 := hok
    simp only [State.process, hd, if_true]
    exact (sleep_inv h rfl).2.trans hc
  | select arms => exact seeded_select hs h hok hc
  | ioPending => exact (io_inv h).2.trans hc

theorem seeded_pollOnce {s : State B} (hs : Seeded s) : Seeded (s.pollOnce poll prioOf).2 := by
  obtain ⟨rng, seed, cs, h⟩ := hs
  obtain ⟨rng', more, a, _⟩ := RepAt.pollOnce (poll := poll) (prioOf := prioOf) s rng seed cs h
  exact ⟨_, _, _, a⟩

/-- A seeded step does not panic. -/
theorem seeded_step {s : State B} (hs : Seeded s) (h : Inv s) (hc : s.crashed = false)
    (hok : ∀ t st, nextStep poll s = some (t, st) → StepOk s t st) : (s.pollOnce poll prioOf).2.crashed = false := by
  cases hr : s.ready with
  | nil =>
    by_cases ht : s.timers = []
    · simp only [State.pollOnce, hr, ht, if_true]; exact hc
    · simp only [State.pollOnce, hr, ht, if_false]
      obtain ⟨m, hm⟩ := earliest_some ht
      refine (advance_core h hr hm ?_).2.2.2.1.trans hc
      unfold State.fireOrder
      split
      · exact seeded_drawOrder _ _ _ hs rfl hc
      · exact hc
  | cons t0 ts =>
    obtain ⟨i, ch, t, k1, k2, k3⟩ := seeded_pick hs hr
    have hmem : t ∈ s.ready := List.mem_of_getElem? k2
    have hpos : 0 < (regOf s t).ready := List.count_pos_iff.mpr hmem
    have hsl : ∃ sl, s.tasks t = some sl := by
      cases h.status t with
      | absent ht hr => rw [hr] at hpos; exact absurd hpos (Nat.lt_irrefl 0)
      | ready sl ht => exact ⟨sl, ht⟩
      | done sl ht => exact ⟨sl, ht⟩
      | blocked sl st clk ht => exact ⟨sl, ht⟩
    obtain ⟨sl, hsl⟩ := hsl
    have hn : nextStep poll s = some (t, (poll sl.body sl.ctx).1) := by
      simp only [nextStep, hr, k3, hsl]
    simp only [State.pollOnce, hr, k3, State.dispatch, State.pollTask, hsl]
    rw [← hr]
    obtain ⟨_, _, _, hpre⟩ := poll_pre (ch := ch) poll h k2 hsl
    refine seeded_process ?_ hpre ((hok _ _ hn).congr rfl rfl) hc
    obtain ⟨rng, seed, cs, hcs⟩ := hs
    obtain ⟨rng', more, a, _⟩ := RepAt.pickReady s rng seed cs hcs
    rw [k3] at a
    exact ⟨rng', seed, cs ++ more, a⟩

/-! ## Which task is picked -/

/-- Where `bestFrom` points. -/
theorem bestFrom_spec (prio : Nat → Nat) : ∀ (l pre : List Nat) (best pri : Nat),
    best < pre.length → (pre[best]?).map prio = some pri → (∀ j < pre.length, ∀ t, pre[j]? = some t → prio t ≤ pri) →
    (∀ j < best, ∀ t, pre[j]? = some t → prio t < pri) →
    ∃ b, (pre ++ l)[State.bestFrom prio l pre.length best pri]? = some b ∧
      (∀ t ∈ pre ++ l, prio t ≤ prio b) ∧
      ∀ j < State.bestFrom prio l pre.length best pri, ∀ t, (pre ++ l)[j]? = some t → prio t < prio b := by
  intro l
  induction l with
  | nil =>
    intro pre best pri hlt hb hall hfirst
    simp only [State.bestFrom, List.append_nil]
    obtain ⟨b, hb1, hb2⟩ := Option.map_eq_some_iff.mp hb
    refine ⟨b, hb1, ?_, ?_⟩
    · intro t ht
      obtain ⟨j, hj⟩ := List.mem_iff_getElem?.mp ht
      have hjl : j < pre.length := (List.getElem?_eq_some_iff.mp hj).1
      rw [hb2]; exact hall j hjl t hj
    · intro j hj t ht
      rw [hb2]; exact hfirst j hj t ht
  | cons x xs ih =>
    intro pre best pri hlt hb hall hfirst
    unfold State.bestFrom
    have happ : pre ++ x :: xs = (pre ++ [x]) ++ xs := by simp
    have hlen : pre.length + 1 = (pre ++ [x]).length := by simp
    have hget : ∀ j < pre.length, (pre ++ [x])[j]? = pre[j]? := by
      intro j hj; rw [List.getElem?_append_left hj]
    have hlast : (pre ++ [x])[pre.length]? = some x := by simp
    split
    · next hgt =>
      rw [happ, hlen]
      refine ih (pre ++ [x]) pre.length (prio x) (by simp) (by rw [hlast]; rfl) ?_ ?_
      · intro j hj t ht
        by_cases hj' : j < pre.length
        · rw [hget j hj'] at ht
          have := hall j hj' t ht
          omega
        · have : j = pre.length := by simp at hj; omega
          subst this
          rw [hlast] at ht; cases ht
          exact Nat.le_refl _
      · intro j hj t ht
        rw [hget j hj] at ht
        have := hall j hj t ht
        omega
    · next hle =>
      rw [happ, hlen]
      refine ih (pre ++ [x]) best pri (by simp; omega) (by rw [hget best hlt]; exact hb) ?_ ?_
      · intro j hj t ht
        by_cases hj' : j < pre.length
        · rw [hget j hj'] at ht
          exact hall j hj' t ht
        · have : j = pre.length := by simp at hj; omega
          subst this
          rw [hlast] at ht; cases ht
          omega
      · intro j hj t ht
        rw [hget j (by omega)] at ht
        exact hfirst j hj t ht

end Verif.Sched
