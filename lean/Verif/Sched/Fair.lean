import Verif.Sched.Facts
/-!
# Which task is picked, and first-in-first-out fairness
-/

namespace Verif.Sched
variable {B : Type} {poll : B → Ctx → Step B × B} {prioOf : B → Nat}

theorem next_pick {s : State B} {t : Nat} {st : Step B} (h : nextStep poll s = some (t, st)) :
    s.pickReady.1 = some t := by
  unfold nextStep at h
  split at h
  · cases h
  · split at h
    · cases h
    · next t' hp =>
      split at h
      · cases h
      · simp only [Option.some.injEq, Prod.mk.injEq] at h
        rw [hp, h.1]

theorem removeReady_some {s : State B} {i t : Nat} (h : (s.removeReady i).1 = some t) : s.ready[i]? = some t := by
  unfold State.removeReady at h
  split at h
  · cases h
  · next e => simp only [Option.some.injEq] at h; rw [e, h]

theorem decide_ready (s : State B) (k : Kind) (n : Nat) : (s.decide k n).2.ready = s.ready := by
  unfold State.decide
  split <;> rfl

theorem pickIndex_ready (s : State B) : s.pickIndex.2.ready = s.ready := by
  unfold State.pickIndex
  split
  · rfl
  · rfl
  · rfl
  · exact decide_ready _ _ _
  · split
    · rfl
    · rfl

theorem next_index {s : State B} {t : Nat} {st : Step B} (h : nextStep poll s = some (t, st)) :
    s.ready[s.pickIndex.1]? = some t := by
  rw [← pickIndex_ready]
  exact removeReady_some (next_pick h)

theorem next_fifo {s : State B} {t : Nat} {st : Step B} (hp : s.cfg.policy = .fifo ∨ s.cfg.policy = .roundRobin)
    (h : nextStep poll s = some (t, st)) : s.ready.head? = some t := by
  have := next_index h
  rw [List.head?_eq_getElem?]
  rcases hp with hp | hp <;> simpa [State.pickIndex, hp] using this

theorem next_lifo {s : State B} {t : Nat} {st : Step B} (hp : s.cfg.policy = .lifo)
    (h : nextStep poll s = some (t, st)) : s.ready.getLast? = some t := by
  have := next_index h
  rw [List.getLast?_eq_getElem?]
  simpa [State.pickIndex, hp] using this

theorem next_priority {s : State B} {t : Nat} {st : Step B} (hp : s.cfg.policy = .priority)
    (h : nextStep poll s = some (t, st)) :
    (∀ u ∈ s.ready, s.prio u ≤ s.prio t) ∧
    ∃ i : Nat, s.ready[i]? = some t ∧ ∀ j < i, ∀ u, s.ready[j]? = some u → s.prio u < s.prio t := by
  have hi := next_index h
  cases hr : s.ready with
  | nil => rw [hr] at hi; simp at hi
  | cons t0 ts =>
    have e : s.pickIndex.1 = State.bestFrom s.prio ts 1 0 (s.prio t0) := by
      simp [State.pickIndex, hp, hr]
    obtain ⟨b, h1, h2, h3⟩ := bestFrom_spec s.prio ts [t0] 0 (s.prio t0) (by simp) (by simp)
      (by intro j hj u hu
          have : j = 0 := by simpa using hj
          subst this
          simp only [List.getElem?_cons_zero, Option.some.injEq] at hu
          rw [hu]; exact Nat.le_refl _)
      (by intro j hj; exact absurd hj (Nat.not_lt_zero _))
    simp only [List.length_singleton, List.singleton_append] at h1 h2 h3
    rw [e, hr, h1] at hi
    simp only [Option.some.injEq] at hi
    subst hi
    exact ⟨h2, _, h1, h3⟩

theorem next_mem {s : State B} {t : Nat} {st : Step B} (h : nextStep poll s = some (t, st)) : t ∈ s.ready :=
  List.mem_of_getElem? (next_index h)

theorem process_cfg {s : State B} {t : Nat} {st : Step B} (h : Pre s t st) :
    (s.process prioOf t st).cfg = s.cfg := by
  by_cases hne : ∀ v, st ≠ .exit v
  · exact (ext_process prioOf t st h.core hne).mono.cfg
  · have : ∃ v, st = .exit v := Classical.byContradiction fun hn => hne fun v hv => hn ⟨v, hv⟩
    obtain ⟨v, rfl⟩ := this
    obtain ⟨sl, ht, _⟩ := h.run.slot
    obtain ⟨a1, _⟩ := exit_facts (v := v) prioOf ht h.run.res
    exact a1.cfg

theorem leads_cfg {s s' : State B} (h : Reach poll prioOf s) (l : Leads poll prioOf s s') : s'.cfg = s.cfg := by
  induction l with
  | refl => rfl
  | chan cap l ih => exact ih
  | task b m l ih => exact ih
  | wake l ih => exact (ext_wakeIo _).mono.cfg.trans ih
  | @step s1 l h1 h2 ih =>
    have k := kinds (h.leads l).inv.1 h1 h2
    generalize (s1.pollOnce poll prioOf).2 = s2 at *
    cases k with
    | idle => exact ih
    | advance m hr he hle hc hd e => exact e.mono.cfg.trans ih
    | poll i t ch sl hi ht hn hx hres hs hpre hok => exact (process_cfg hpre).trans ih

theorem grow_wakeEach (ts : List Nat) : ∀ (s : State B), Grow s (s.wakeEach ts) := by
  induction ts with
  | nil => intro s; exact Grow.refl s
  | cons t ts ih =>
    intro s
    exact ((show Grow s { s with ready := s.ready ++ [t] } from ⟨[t], rfl⟩).trans (grow_modTask _ _ _)).trans (ih _)

theorem filter_pos {t u : Nat} (htu : t ≠ u) : ∀ {l : List Nat} {j : Nat}, l[j]? = some t →
    ∃ j', j' ≤ j ∧ (l.filter (· ≠ u))[j']? = some t := by
  intro l
  induction l with
  | nil => intro j h; simp at h
  | cons x xs ih =>
    intro j h
    cases j with
    | zero =>
      simp only [List.getElem?_cons_zero, Option.some.injEq] at h
      subst h
      exact ⟨0, Nat.le_refl _, by simp [htu]⟩
    | succ j =>
      simp only [List.getElem?_cons_succ] at h
      obtain ⟨j', h1, h2⟩ := ih h
      by_cases hx : x = u
      · exact ⟨j', by omega, by simpa [List.filter_cons, hx] using h2⟩
      · exact ⟨j' + 1, by omega, by simpa [List.filter_cons, hx] using h2⟩

theorem getElem?_grow {l new : List Nat} {j t : Nat} (h : l[j]? = some t) : (l ++ new)[j]? = some t := by
  rw [List.getElem?_append_left]
  · exact h
  · rcases Nat.lt_or_ge j l.length with h1 | h1
    · exact h1
    · rw [List.getElem?_eq_none h1] at h; cases h

/-- Under first-in-first-out picking, a ready task waits at most as many polls as it has predecessors. -/
theorem fifo_waits {s s' : State B} {t k : Nat} (h : Reach poll prioOf s) (l : Leads poll prioOf s s')
    (hp : s.cfg.policy = .fifo ∨ s.cfg.policy = .roundRobin) (hk : s.ready[k]? = some t) :
    ∃ evs, s'.log = s.log ++ evs ∧
      (pollsOf t evs ≠ [] ∨ (s'.results t).isSome ∨ ∃ j, s'.ready[j]? = some t ∧ j + (pollTimes evs).length ≤ k) := by
  induction l with
  | refl => exact ⟨[], by simp, Or.inr (Or.inr ⟨k, hk, by simp [pollTimes]⟩)⟩
  | chan cap l ih => exact ih
  | task b m l ih =>
    obtain ⟨evs, e, hc⟩ := ih
    refine ⟨evs, e, ?_⟩
    rcases hc with hc | hc | ⟨j, h1, h2⟩
    · exact Or.inl hc
    · exact Or.inr (Or.inl hc)
    · exact Or.inr (Or.inr ⟨j, getElem?_grow h1, h2⟩)
  | @wake s1 l ih =>
    obtain ⟨evs, e, hc⟩ := ih
    have hx := ext_wakeIo s1
    obtain ⟨ev2, g1, g2⟩ := hx.log
    refine ⟨evs ++ ev2, by rw [g1, e, List.append_assoc], ?_⟩
    rcases hc with hc | hc | ⟨j, h1, h2⟩
    · left; rw [pollsOf_append]; simp [hc]
    · obtain ⟨r, hr⟩ := Option.isSome_iff_exists.mp hc
      right; left; rw [hx.mono.results _ _ hr]; rfl
    · right; right
      obtain ⟨new, hn⟩ := grow_wakeEach ((List.range s1.nextId).filter fun t => s1.stateOf t == some .blockedIo) s1
      refine ⟨j, ?_, ?_⟩
      · show (State.wakeIo s1).ready[j]? = _
        unfold State.wakeIo
        rw [hn]; exact getElem?_grow h1
      · rw [pollTimes, List.filterMap_append, ← pollTimes, ← pollTimes, pollTimes_quiet g2, List.append_nil]; exact h2
  | @step s1 l h1 h2 ih =>
    have hin := (h.leads l).inv.1
    have k' := kinds hin h1 h2
    have hcfg := leads_cfg h l
    obtain ⟨evs, e, hc⟩ := ih
    generalize (s1.pollOnce poll prioOf).2 = s2 at *
    have hfwd := k'.fwd
    rcases hc with hc | hc | ⟨j, hj1, hj2⟩
    · obtain ⟨ev2, g1, _⟩ := hfwd.log
      refine ⟨evs ++ ev2, by rw [g1, e, List.append_assoc], Or.inl ?_⟩
      rw [pollsOf_append]; simp [hc]
    · obtain ⟨ev2, g1, _⟩ := hfwd.log
      obtain ⟨r, hr⟩ := Option.isSome_iff_exists.mp hc
      refine ⟨evs ++ ev2, by rw [g1, e, List.append_assoc], Or.inr (Or.inl ?_)⟩
      rw [hfwd.results _ _ hr]; rfl
    · have hne : s1.ready ≠ [] := by intro h0; rw [h0] at hj1; simp at hj1
      cases k' with
      | idle hr _ => exact absurd hr hne
      | advance m hr => exact absurd hr hne
      | poll i t' ch sl hi ht hn hx hres hs hpre hok =>
        have hhead := next_fifo (by rw [hcfg]; exact hp) hn
        have hi0 : i = 0 := by
          rw [List.head?_eq_getElem?] at hhead
          have hlt : 0 < s1.ready.length := by
            cases hr : s1.ready with
            | nil => exact absurd hr hne
            | cons a as => simp
          exact ((List.getElem?_inj hlt (ready_nodup hin)).mp (hhead.trans hi.symm)).symm
        subst hi0
        obtain ⟨_, _, ev2, g1, g2⟩ := process_fwd (prioOf := prioOf) hpre
        have hlog : (State.process prioOf (polled poll s1 ch 0 t' sl) t' (poll sl.body sl.ctx).1).log =
            s.log ++ (evs ++ (.poll t' sl.ctx (poll sl.body sl.ctx).1 s1.clock :: ev2)) := by
          rw [g1]
          simp [polled, e, List.append_assoc]
        refine ⟨_, hlog, ?_⟩
        cases j with
        | zero =>
          have : t' = t := by
            rw [hi] at hj1
            exact Option.some.inj hj1
          left
          rw [pollsOf_append]
          simp [pollsOf, this]
        | succ j =>
          have hlen : (pollTimes (evs ++ (.poll t' sl.ctx (poll sl.body sl.ctx).1 s1.clock :: ev2))).length =
              (pollTimes evs).length + 1 := by
            rw [pollTimes, List.filterMap_append, ← pollTimes, List.filterMap_cons]
            have := pollTimes_quiet g2
            unfold pollTimes at this
            simp [this]
          have hpos : (polled poll s1 ch 0 t' sl).ready[j]? = some t := by
            simp only [polled]
            cases hr : s1.ready with
            | nil => exact absurd hr hne
            | cons a as => rw [hr] at hj1; simpa using hj1
          rcases process_ready prioOf (polled poll s1 ch 0 t' sl) t' (poll sl.body sl.ctx).1 with
            ⟨new, hnew⟩ | ⟨u, new, hu, hnew, hab⟩
          · right; right
            refine ⟨j, by rw [hnew]; exact getElem?_grow hpos, ?_⟩
            rw [hlen]; omega
          · by_cases htu : t = u
            · right; left; rw [htu, hab]; rfl
            · obtain ⟨j', q1, q2⟩ := filter_pos htu hpos
              right; right
              refine ⟨j', by rw [hnew]; exact getElem?_grow q2, ?_⟩
              rw [hlen]; omega

/-! ## Abort -/

theorem results_wakeAll (ws : List Nat) : ∀ (s : State B) (p : Payload), (s.wakeAll p ws).results = s.results := by
  induction ws with
  | nil => intro s p; rfl
  | cons w ws ih =>
    intro s p
    rw [State.wakeAll, ih]
    unfold State.markReady State.modTask
    split <;> rfl

theorem results_markReady (s : State B) (t : Nat) (v : Payload) : (s.markReady t v).results = s.results := by
  unfold State.markReady State.modTask
  split <;> rfl

theorem live_state {s : State B} {u : Nat} (h : Inv s) (hl : live s u) : ∃ w, s.stateOf u = some w ∧ w ≠ .done := by
  rcases registrations h u with ⟨g1, g2⟩ | ⟨g0, g1, g2⟩ | ⟨g0, g1, g2⟩ | ⟨g0, st, clk, g4, _, g1, g3, g2⟩
  · have := hl.1; rw [g1] at this; cases this
  · rw [hl.2] at g0; cases g0
  · exact ⟨_, g1, by simp⟩
  · obtain ⟨w, hw⟩ := Option.isSome_iff_exists.mp g1
    exact ⟨w, g3.trans hw, fun e => waitState_ne_done st (by rw [hw, e])⟩

theorem doAbort_result {s : State B} {u : Nat} {w : TState} (hr : s.results u = none) (hw : s.stateOf u = some w)
    (hwd : w ≠ .done) : (s.doAbort u).results u = some .aborted := by
  unfold State.doAbort
  simp only [hr, hw]
  cases w <;> first | exact absurd rfl hwd | (simp only [State.complete, results_wakeAll, upd_same])

/-- Aborting a live task makes its result "aborted". -/
theorem abort_result {s : State B} {t u : Nat} (h : Inv s) (hn : nextStep poll s = some (t, .abort u))
    (hok : StepOk s t (.abort u)) (hno : (s.pollOnce poll prioOf).2.crashed = false) (hl : live s u) :
    (s.pollOnce poll prioOf).2.results u = some .aborted := by
  have hk := kinds h (fun t' st' e => by
    rw [hn] at e; simp only [Option.some.injEq, Prod.mk.injEq] at e; rw [← e.1, ← e.2]; exact hok) hno
  have hne : s.ready ≠ [] := List.ne_nil_of_mem (next_mem hn)
  generalize (s.pollOnce poll prioOf).2 = s2 at *
  obtain ⟨w, hw, hwd⟩ := live_state h hl
  cases hk with
  | idle hr _ => exact absurd hr hne
  | advance m hr => exact absurd hr hne
  | poll i t' ch sl hi ht hn' hx hres hs hpre hok' =>
    rw [hn] at hn'
    simp only [Option.some.injEq, Prod.mk.injEq] at hn'
    obtain ⟨rfl, hst⟩ := hn'
    rw [← hst]
    show (((polled poll s ch i t sl).doAbort u).markReady t .nothing).results u = _
    rw [results_markReady]
    refine doAbort_result (w := w) hl.2 ?_ hwd
    rw [← hw]
    have : u ≠ t := hok
    simp [State.stateOf, polled, upd, this]

/-! ## What a step sends -/

/-- The sends of a channel after a scheduler step. -/
theorem step_sent {s : State B} (h : Inv s) (hok : ∀ t st, nextStep poll s = some (t, st) → StepOk s t st)
    (hno : (s.pollOnce poll prioOf).2.crashed = false) (c : Nat) :
    sentOn c (s.pollOnce poll prioOf).2.log = sentOn c s.log ++ (match nextStep poll s with
      | some (t, .send c' p) => if c' = c then [(t, p)] else []
      | some (t, .trySend c' p) =>
        if c' = c ∧ ((s.chan c').receivers ≠ [] ∨ (s.chan c').hasRoom = true) then [(t, p)] else []
      | _ => []) := by
  cases hr : s.ready with
  | nil =>
    have e : nextStep poll s = none := by simp [nextStep, hr]
    rw [e]
    by_cases ht : s.timers = []
    · simp only [State.pollOnce, hr, ht, if_true, List.append_nil]
    · simp only [State.pollOnce, hr, ht, if_false, List.append_nil]
      unfold State.advanceTimers
      split
      · rfl
      · next m hm =>
        rw [mute_fireAll _ _ c]
        unfold State.fireOrder
        split
        · rw [mute_drawOrder _ _ _ c]
        · rfl
  | cons t0 ts =>
    obtain ⟨i, ch, t, sl, h1, h2, _, _, h5, h6⟩ := pollOnce_poll poll prioOf h hr hno
    rw [h6, h5, process_sent]
    have : ∀ x, sentOn c (s.log ++ [Ev.poll t sl.ctx (poll sl.body sl.ctx).1 x]) = sentOn c s.log := by
      intro x; rw [sentOn_append]; simp [sentOn]
    simp only [this]
    congr 1
    cases (poll sl.body sl.ctx).1 <;> rfl

end Verif.Sched
