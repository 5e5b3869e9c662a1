import Verif.Sched.Ops5
/-!
# Advancing the clock preserves the invariant
-/

namespace Verif.Sched
variable {B : Type}

/-- Task `t` waits for a timer that is about to fire at time `m`; `es` are the timers still to fire. -/
structure Pending (s : State B) (m : Nat) (es : List Timer) (t : Nat) (st : Step B) (clk : Nat) (sl : Slot B) :
    Prop where
  loose : Loose s t st clk sl
  wait : waitState st = some sl.state
  reg : regOf s t = { waitReg clk st with timers := (waitReg clk st).timers.filter (·.1 ≠ m) }
  due : ∀ e ∈ es, e.tid = t → (m, e.arm) ∈ (waitReg clk st).timers
  some : ∃ e ∈ es, e.tid = t

/-- The states while timers `es`, all due now, fire. -/
structure Firing (s : State B) (es : List Timer) : Prop where
  each : ∀ t, (Status s t ∧ ((∃ e ∈ es, e.tid = t) → s.stateOf t = some .ready)) ∨
    ∃ st clk sl, Pending s s.clock es t st clk sl
  chans : ∀ c, ChanOk (s.chan c)
  ledger : Ledger s
  core : Core s

theorem stateOf_same {s s' : State B} {t : Nat} (k : Same s s' t) : s'.stateOf t = s.stateOf t := by
  simp [State.stateOf, k.task]

theorem Pending.frame {s s' : State B} {m : Nat} {es : List Timer} {t : Nat} {st : Step B} {clk : Nat} {sl : Slot B}
    (k : Same s s' t) (h : Pending s m es t st clk sl) : Pending s' m es t st clk sl :=
  ⟨h.loose.frame k, h.wait, k.reg.trans h.reg, h.due, h.some⟩

/-- One due timer fires. -/
theorem fire_one {s : State B} {e : Timer} {es : List Timer} (h : Firing s (e :: es)) :
    Firing (s.fireTimer e.tid e.arm) es ∧ (s.fireTimer e.tid e.arm).crashed = s.crashed ∧
    (s.fireTimer e.tid e.arm).clock = s.clock ∧ (s.fireTimer e.tid e.arm).stateOf e.tid = some .ready ∧
    ∀ t, s.stateOf t = some .ready → (s.fireTimer e.tid e.arm).stateOf t = some .ready := by
  rcases h.each e.tid with ⟨h1, h2⟩ | ⟨st, clk, sl, hp⟩
  · have hr := h2 ⟨e, by simp, rfl⟩
    have hs : s.fireTimer e.tid e.arm = s := by simp [State.fireTimer, hr]
    rw [hs]
    refine ⟨⟨?_, h.chans, h.ledger, h.core⟩, rfl, rfl, hr, fun _ h => h⟩
    intro t
    rcases h.each t with ⟨a, b⟩ | ⟨st, clk, sl, hp⟩
    · exact Or.inl ⟨a, fun ⟨e', he', ht⟩ => b ⟨e', by simp [he'], ht⟩⟩
    · by_cases ht : t = e.tid
      · subst ht
        have e1 : s.stateOf e.tid = some sl.state := by simp [State.stateOf, hp.loose.slot]
        rw [hr] at e1
        have := hp.wait
        rw [← Option.some.inj e1] at this
        cases st <;> simp [waitState] at this
      · refine Or.inr ⟨st, clk, sl, hp.loose, hp.wait, hp.reg, fun e' he' => hp.due e' (by simp [he']), ?_⟩
        obtain ⟨e', he', ht'⟩ := hp.some
        simp only [List.mem_cons] at he'
        rcases he' with rfl | he'
        · exact absurd ht' (Ne.symm ht)
        · exact ⟨e', he', ht'⟩
  · have hdue := hp.due e (by simp) rfl
    have key : Calm s (s.fireTimer e.tid e.arm) ∧ (∀ t, t ≠ e.tid → Same s (s.fireTimer e.tid e.arm) t) ∧
        (s.fireTimer e.tid e.arm).log = s.log ∧ Status (s.fireTimer e.tid e.arm) e.tid ∧
        (s.fireTimer e.tid e.arm).stateOf e.tid = some .ready := by
      have hstate : s.stateOf e.tid = some sl.state := by simp [State.stateOf, hp.loose.slot]
      cases st with
      | sleep d =>
        simp only [waitReg, List.mem_singleton, Prod.mk.injEq] at hdue
        obtain ⟨hm, ha⟩ := hdue
        have hss : sl.state = .blockedTimer := by
          have := hp.wait; simp only [waitState, Option.some.injEq] at this; exact this.symm
        have hs : s.fireTimer e.tid e.arm = s.markReady e.tid .nothing := by
          simp [State.fireTimer, hstate, hss, ha]
        have hreg : regOf s e.tid = {} := by
          rw [hp.reg]; simp [waitReg, hm]
        have hmk := markReady_some hp.loose.slot .nothing
        rw [hs]
        refine ⟨markReady_calm hp.loose.slot _, fun t ht => markReady_same hp.loose.slot _ ht,
          markReady_log hp.loose.slot _, ?_, ?_⟩
        · refine markReady_status hp.loose.slot _ hreg hp.loose.arms hp.loose.res hp.loose.poll ?_
          rw [hp.loose.since, hp.loose.ctx]
          exact ⟨rfl, rfl, by omega⟩
        · rw [hmk]; simp [State.stateOf, upd]
      | select arms =>
        simp only [waitReg] at hdue
        obtain ⟨j, d, ha, hget, hm⟩ := armTimers_mem arms 0 _ _ hdue
        rw [Nat.zero_add] at ha
        have hss : sl.state = .blockedSelect := by
          have := hp.wait; simp only [waitState, Option.some.injEq] at this; exact this.symm
        have harms : s.armsOf e.tid = some arms := by
          simp [State.armsOf, hp.loose.slot, hp.loose.arms, armsFor]
        have hs : s.fireTimer e.tid e.arm = ((s.clearArms e.tid).win e.tid j .nothing).cancel e.tid none := by
          simp [State.fireTimer, hstate, hss, ha, harms]
        obtain ⟨k1, k2, k3, k4, k5, sl', k6, k7, k8, k9⟩ := selectWake (i := j) (v := .nothing) (keep := none) hp.loose
          (by rw [hp.reg]; rfl) (by intro c hc; cases hc) (by rw [hp.reg]; rfl) (by rw [hp.reg]; rfl)
        rw [hs]
        refine ⟨k1, k2, k3, ?_, ?_⟩
        · refine .ready sl' k6 k7 k4 k8 k5 ?_
          simp only [Resumable, k3, hp.loose.poll, hp.loose.since]
          refine ⟨j, Or.inr ⟨d, hget, rfl, k9, ?_⟩⟩
          rw [k1.clock]; omega
        · simp only [State.stateOf, k6, k7]
      | _ => simp [waitReg] at hdue
    obtain ⟨k1, k2, k3, k4, k5⟩ := key
    refine ⟨⟨?_, fun c => (h.chans c).calm k1, ?_, h.core.calm k1⟩, k1.crashed, k1.clock, k5, ?_⟩
    · intro t
      by_cases ht : t = e.tid
      · rw [ht]; exact Or.inl ⟨k4, fun _ => k5⟩
      · rcases h.each t with ⟨a, b⟩ | ⟨st', clk', sl', hp'⟩
        · refine Or.inl ⟨a.frame k1.mono (k2 t ht), fun ⟨e', he', ht'⟩ => ?_⟩
          rw [stateOf_same (k2 t ht)]
          exact b ⟨e', by simp [he'], ht'⟩
        · refine Or.inr ⟨st', clk', sl', ?_⟩
          have f := hp'.frame (k2 t ht)
          rw [k1.clock]
          refine ⟨f.loose, f.wait, f.reg, fun e' he' => f.due e' (by simp [he']), ?_⟩
          obtain ⟨e', he', ht'⟩ := f.some
          simp only [List.mem_cons] at he'
          rcases he' with rfl | he'
          · exact absurd ht' (Ne.symm ht)
          · exact ⟨e', he', ht'⟩
    · exact h.ledger.quiet k3 k1.results fun k => ⟨(k1.chans k).2.1, (k1.chans k).2.2.1⟩
    · intro t ht
      by_cases hte : t = e.tid
      · rw [hte]; exact k5
      · rw [stateOf_same (k2 t hte)]; exact ht

theorem fire_all (es : List Timer) : ∀ {s : State B}, Firing s es →
    Inv (s.fireAll es) ∧ (s.fireAll es).crashed = s.crashed ∧ (s.fireAll es).clock = s.clock ∧
    ∀ t, (s.stateOf t = some .ready ∨ ∃ e ∈ es, e.tid = t) → (s.fireAll es).stateOf t = some .ready := by
  induction es with
  | nil =>
    intro s h
    refine ⟨⟨?_, h.chans, h.ledger, h.core⟩, rfl, rfl, ?_⟩
    · intro t
      rcases h.each t with ⟨a, _⟩ | ⟨_, _, _, hp⟩
      · exact a
      · obtain ⟨e, he, _⟩ := hp.some; cases he
    · intro t ht
      rcases ht with ht | ⟨e, he, _⟩
      · exact ht
      · cases he
  | cons e es ih =>
    intro s h
    obtain ⟨k1, k2, k3, k4, k5⟩ := fire_one h
    obtain ⟨i1, i2, i3, i4⟩ := ih k1
    refine ⟨i1, i2.trans k2, i3.trans k3, ?_⟩
    intro t ht
    refine i4 t ?_
    rcases ht with ht | ⟨e', he', ht⟩
    · exact Or.inl (k5 t ht)
    · simp only [List.mem_cons] at he'
      rcases he' with rfl | he'
      · exact Or.inl (ht ▸ k4)
      · exact Or.inr ⟨e', he', ht⟩

/-! ## The order of ties -/

theorem crashed_decide {s : State B} (k : Kind) (n : Nat) (h : s.crashed = true) : (s.decide k n).2.crashed = true := by
  unfold State.decide; split
  · rfl
  · exact h

theorem crashed_drawOrder (n : Nat) : ∀ (pool : List Timer) {s : State B}, s.crashed = true →
    (State.drawOrder n pool s).2.crashed = true := by
  induction n with
  | zero => intro pool s h; exact h
  | succ n ih =>
    intro pool s h
    unfold State.drawOrder
    split
    · rfl
    · exact ih _ (crashed_decide _ _ h)

theorem perm_eraseIdx_get {A : Type} : ∀ {l : List A} {i : Nat} {a : A}, l[i]? = some a → (a :: l.eraseIdx i).Perm l := by
  intro l
  induction l with
  | nil => intro i a h; simp at h
  | cons b l ih =>
    intro i a h
    cases i with
    | zero => simp only [List.getElem?_cons_zero, Option.some.injEq] at h; subst h; exact List.Perm.refl _
    | succ i =>
      simp only [List.getElem?_cons_succ] at h
      exact (List.Perm.swap _ _ _).trans ((ih h).cons b)

/-- Unless something crashes, the drawn order is a rearrangement of the pool and only the chooser moved. -/
theorem drawOrder_ok (n : Nat) : ∀ (pool : List Timer) (s : State B), pool.length = n →
    (State.drawOrder n pool s).2.crashed = false →
    (State.drawOrder n pool s).1.Perm pool ∧ ∃ ch, (State.drawOrder n pool s).2 = { s with chooser := ch } := by
  induction n with
  | zero =>
    intro pool s hl _
    rw [List.length_eq_zero_iff] at hl
    subst hl
    exact ⟨List.Perm.refl _, s.chooser, rfl⟩
  | succ n ih =>
    intro pool s hl hno
    unfold State.drawOrder at hno ⊢
    cases hg : pool[(s.decide .timerTieBreak pool.length).1]? with
    | none => rw [hg] at hno; cases hno
    | some e =>
      rw [hg] at hno
      simp only at hno ⊢
      have hlt : (s.decide .timerTieBreak pool.length).1 < pool.length := by
        rw [List.getElem?_eq_some_iff] at hg; exact hg.1
      obtain ⟨p1, ch, p2⟩ := ih _ _ (by rw [List.length_eraseIdx_of_lt hlt, hl]; rfl) hno
      refine ⟨(p1.cons e).trans (perm_eraseIdx_get hg), ?_⟩
      rcases decide_cases s .timerTieBreak pool.length with hc | ⟨ch', hc⟩
      · rw [crashed_drawOrder _ _ hc] at hno; cases hno
      · exact ⟨ch, by rw [p2, hc]⟩

theorem fireOrder_ok (s : State B) (due : List Timer) (hno : (s.fireOrder due).2.crashed = false) :
    (s.fireOrder due).1.Perm due ∧ ∃ ch, (s.fireOrder due).2 = { s with chooser := ch } := by
  unfold State.fireOrder at hno ⊢
  split at hno
  · next h => rw [if_pos h]; exact drawOrder_ok _ _ _ rfl hno
  · next h => rw [if_neg h]; exact ⟨List.Perm.refl _, s.chooser, rfl⟩

theorem earliest_le {l : List Timer} {m : Nat} (h : State.earliest l = some m) : ∀ e ∈ l, m ≤ e.fireAt := by
  induction l generalizing m with
  | nil => intro e he; cases he
  | cons a l ih =>
    intro e he
    simp only [State.earliest] at h
    cases hl : State.earliest l with
    | none =>
      rw [hl] at h
      simp only [Option.some.injEq] at h
      cases l with
      | nil => simp only [List.mem_singleton] at he; rw [he, ← h]; exact Nat.le_refl _
      | cons b l =>
        simp only [State.earliest] at hl
        split at hl <;> cases hl
    | some m' =>
      rw [hl] at h
      simp only [Option.some.injEq] at h
      simp only [List.mem_cons] at he
      rcases he with rfl | he
      · omega
      · have := ih hl e he; omega

theorem earliest_mem {l : List Timer} {m : Nat} (h : State.earliest l = some m) : ∃ e ∈ l, e.fireAt = m := by
  induction l generalizing m with
  | nil => cases h
  | cons a l ih =>
    simp only [State.earliest] at h
    cases hl : State.earliest l with
    | none => rw [hl] at h; simp only [Option.some.injEq] at h; exact ⟨a, by simp, h⟩
    | some m' =>
      rw [hl] at h
      simp only [Option.some.injEq] at h
      by_cases hle : a.fireAt ≤ m'
      · exact ⟨a, by simp, by omega⟩
      · obtain ⟨e, he, hm⟩ := ih hl
        exact ⟨e, by simp [he], by omega⟩

theorem crashed_fireTimer {s : State B} (t : Nat) (a : Option Nat) (h : s.crashed = true) :
    (s.fireTimer t a).crashed = true := by
  unfold State.fireTimer
  split
  · split
    · split
      · exact crashed_win _ _ _ (crashed_modTask _ _ h)
      · exact crashed_win _ _ _ h
    · exact crashed_markReady _ _ h
  · exact h

theorem crashed_fireAll (es : List Timer) : ∀ {s : State B}, s.crashed = true → (s.fireAll es).crashed = true := by
  induction es with
  | nil => intro s h; exact h
  | cons e es ih => intro s h; exact ih (crashed_fireTimer _ _ h)


/-- The clock moves to the earliest deadline and every task with a timer due then is ready. -/
theorem advance_core {s : State B} {m : Nat} (h : Inv s) (hidle : s.ready = []) (he : State.earliest s.timers = some m)
    (hdueF : (({ s with clock := m, timers := s.timers.filter (·.fireAt ≠ m) } : State B).fireOrder
        (s.timers.filter (·.fireAt = m))).2.crashed = false) :
    Inv s.advanceTimers ∧ s.clock ≤ m ∧ s.advanceTimers.clock = m ∧ s.advanceTimers.crashed = s.crashed ∧
    ∀ e ∈ s.timers, e.fireAt = m → s.advanceTimers.stateOf e.tid = some .ready := by
  unfold State.advanceTimers
  · simp only [he]
    have hle := earliest_le he
    have hclk : s.clock ≤ m := by
      obtain ⟨e, he1, he2⟩ := earliest_mem he
      have := h.core.timers e he1; omega
    obtain ⟨hperm, ch, hst⟩ := fireOrder_ok _ _ hdueF
    rw [hst]
    generalize (({ s with clock := m, timers := s.timers.filter (·.fireAt ≠ m) } : State B).fireOrder
        (s.timers.filter (·.fireAt = m))).1 = L at hperm
    have hmemL : ∀ e, e ∈ L ↔ e ∈ s.timers ∧ e.fireAt = m := by
      intro e
      rw [hperm.mem_iff]; simp
    have hregt : ∀ t, regOf ({ s with clock := m, timers := s.timers.filter (·.fireAt ≠ m), chooser := ch } : State B) t =
        { regOf s t with timers := (regOf s t).timers.filter (·.1 ≠ m) } := by
      intro t
      simp only [regOf, State.chan, Reg.mk.injEq, true_and, and_true]
      rw [List.filter_map, List.filter_filter, List.filter_filter]
      congr 2
      funext e
      simp only [Function.comp_apply, Bool.and_comm]
    have hfire : Firing ({ s with clock := m, timers := s.timers.filter (·.fireAt ≠ m), chooser := ch } : State B) L := by
      refine ⟨?_, h.chans, h.ledger, ⟨h.core.taskLt, h.core.chanLt, h.core.awDone, h.core.awTask, ?_⟩⟩
      · intro t
        by_cases hex : ∃ e ∈ L, e.tid = t
        · refine Or.inr ?_
          obtain ⟨e, he1, he2⟩ := hex
          have hall : ∀ e ∈ L, e.tid = t → (m, e.arm) ∈ (regOf s t).timers := by
            intro e he ht
            obtain ⟨a, b⟩ := (hmemL e).mp he
            simp only [regOf, List.mem_map, List.mem_filter, decide_eq_true_eq]
            exact ⟨e, ⟨a, ht⟩, by rw [b]⟩
          have hmem := hall e he1 he2
          have hs := h.status t
          cases hs with
          | absent ht hr => rw [hr] at hmem; cases hmem
          | ready sl ht hs hr => rw [hr] at hmem; cases hmem
          | done sl ht hs hr => rw [hr] at hmem; cases hmem
          | blocked sl st clk ht hl hs hr he' hc hres ha hk =>
            refine ⟨st, clk, sl, ⟨⟨ht, ha, hc, hl, he', hres⟩, hs, ?_, ?_, ⟨e, he1, he2⟩⟩⟩
            · rw [hregt, hr]
            · intro e he ht; rw [← hr]; exact hall e he ht
        · refine Or.inl ⟨Status.frameIdle (s := s) ⟨rfl, ?_, rfl, rfl, rfl⟩ (by simp [regOf, hidle]) (h.status t), fun hh => absurd hh hex⟩
          rw [hregt]
          have : (regOf s t).timers.filter (·.1 ≠ m) = (regOf s t).timers := by
            rw [List.filter_eq_self]
            intro q hq
            simp only [regOf, List.mem_map, List.mem_filter, decide_eq_true_eq] at hq
            obtain ⟨e, ⟨e1, e2⟩, rfl⟩ := hq
            simp only [ne_eq, decide_eq_true_eq]
            intro hf
            exact hex ⟨e, (hmemL e).mpr ⟨e1, hf⟩, e2⟩
          rw [this]
      · intro e he
        simp only [List.mem_filter] at he
        exact hle e he.1
    obtain ⟨k1, k2, k3, k4⟩ := fire_all L hfire
    refine ⟨k1, hclk, k3, k2, ?_⟩
    intro e he1 he2
    exact k4 e.tid (Or.inr ⟨e, (hmemL e).mpr ⟨he1, he2⟩, rfl⟩)

theorem advance_crash {s : State B} {m : Nat} (he : State.earliest s.timers = some m)
    (hno : s.advanceTimers.crashed = false) :
    (({ s with clock := m, timers := s.timers.filter (·.fireAt ≠ m) } : State B).fireOrder
        (s.timers.filter (·.fireAt = m))).2.crashed = false := by
  unfold State.advanceTimers at hno
  rw [he] at hno
  simp only at hno
  cases hcc : (({ s with clock := m, timers := s.timers.filter (·.fireAt ≠ m) } : State B).fireOrder
    (s.timers.filter (·.fireAt = m))).2.crashed with
  | false => rfl
  | true => rw [crashed_fireAll _ hcc] at hno; cases hno

theorem advance_inv {s : State B} (h : Inv s) (hidle : s.ready = []) (hno : s.advanceTimers.crashed = false) :
    Inv s.advanceTimers ∧ s.clock ≤ s.advanceTimers.clock ∧
    (∀ m, State.earliest s.timers = some m → s.advanceTimers.clock = m ∧
      ∀ e ∈ s.timers, e.fireAt = m → s.advanceTimers.stateOf e.tid = some .ready) := by
  cases he : State.earliest s.timers with
  | none =>
    have : s.advanceTimers = s := by simp only [State.advanceTimers, he]
    rw [this]
    exact ⟨h, Nat.le_refl _, fun m hm => by cases hm⟩
  | some m =>
    obtain ⟨a1, a2, a3, _, a5⟩ := advance_core h hidle he (advance_crash he hno)
    refine ⟨a1, by rw [a3]; exact a2, ?_⟩
    intro m' hm'
    cases hm'
    exact ⟨a3, a5⟩

end Verif.Sched
