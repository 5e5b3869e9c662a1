import Verif.Sched.Timers
/-!
# Every reachable state satisfies the invariant
-/

namespace Verif.Sched
variable {B : Type}

theorem process_inv {s : State B} {x : Nat} {st : Step B} (prioOf : B → Nat) (h : Pre s x st) (hok : StepOk s x st)
    (hno : (s.process prioOf x st).crashed = false) : Inv (s.process prioOf x st) := by
  cases st with
  | yield => exact (yield_inv h).1
  | await u => exact (doAwait_inv h).1
  | abort u => exact (abort_inv h hok rfl).1
  | close c => exact (close_inv h hok rfl).1
  | exit v => exact (exit_inv h rfl).1
  | spawn b => exact (spawn_inv h rfl).1
  | newChan cap => exact (newChan_inv h rfl).1
  | send c p => exact (doSend_inv h hok).1
  | trySend c p => exact (doTrySend_inv h hok).1
  | recv c => exact (doRecv_inv h hok).1
  | tryRecv c => exact (doTryRecv_inv h hok).1
  | sleep d =>
    have hd : s.clock + d < 2 ^ 64 := hok
    simp only [State.process, hd, if_true]
    exact (sleep_inv h rfl).1
  | select arms => exact doSelect_inv h hok hno
  | ioPending => exact (io_inv h).1

theorem count_eraseIdx : ∀ {l : List Nat} {i a : Nat}, l[i]? = some a →
    ∀ b, (l.eraseIdx i).count b = if a = b then l.count b - 1 else l.count b := by
  intro l i a h b
  have := (perm_eraseIdx_get h).count_eq b
  rw [List.count_cons] at this
  by_cases hab : a = b
  · subst hab; simp only [BEq.rfl, if_true] at this ⊢; omega
  · have hbe : (a == b) = false := by simpa using hab
    simp only [hbe, hab, if_false] at this ⊢
    simpa using this

/-- Picking and polling a ready task. -/
theorem poll_pre {s : State B} (poll : B → Ctx → Step B × B) (h : Inv s) {i t : Nat} {sl : Slot B} {ch : Chooser}
    (hi : s.ready[i]? = some t) (hsl : s.tasks t = some sl) :
    Resumable s t sl.ctx ∧ s.results t = none ∧ sl.state = .ready ∧
    Pre ({ s with
      chooser := ch
      ready := s.ready.eraseIdx i
      tasks := upd s.tasks t (some { sl with
          body := (poll sl.body sl.ctx).2, resume := .nothing, selectedArm := none, resumeChan := none,
          resumeTask := none })
      log := s.log ++ [.poll t sl.ctx (poll sl.body sl.ctx).1 s.clock] } : State B) t (poll sl.body sl.ctx).1 := by
  have hmem : t ∈ s.ready := List.mem_of_getElem? hi
  have hpos : 0 < (regOf s t).ready := List.count_pos_iff.mpr hmem
  have hs := h.status t
  cases hs with
  | absent ht hr => rw [hr] at hpos; exact absurd hpos (Nat.lt_irrefl 0)
  | done sl ht hs hr => rw [hr] at hpos; exact absurd hpos (Nat.lt_irrefl 0)
  | blocked sl st clk ht hl hs hr =>
    rw [hr] at hpos
    cases st <;> exact absurd hpos (Nat.lt_irrefl 0)
  | ready sl' ht hs hr ha hres hx =>
    rw [hsl] at ht
    cases ht
    refine ⟨hx, hres, hs, ?_⟩
    have hcnt := count_eraseIdx hi
    refine ⟨?_, ?_, h.chans, ?_, ?_⟩
    · intro u hu
      refine (h.status u).frame ?_ ⟨upd_ne _ _ hu, ?_, ?_, ?_, rfl⟩
      · refine ⟨rfl, rfl, fun _ _ h => h, fun _ ch h => ⟨ch, h, rfl, id⟩, ?_⟩
        intro k slk hk
        by_cases hkt : k = t
        · exact ⟨_, by rw [hkt]; exact upd_same _ _ _⟩
        · exact ⟨slk, by rw [← hk]; exact upd_ne _ _ hkt⟩
      · simp only [regOf, State.chan, Reg.mk.injEq, and_true]
        rw [hcnt u]; simp [Ne.symm hu]
      · show lastPoll u (s.log ++ [_]) = _
        rw [lastPoll_snoc]; simp [Ne.symm hu]
      · show since u (s.log ++ [_]) = _
        rw [since_snoc]; simp [Ne.symm hu]
    · refine ⟨⟨_, upd_same _ _ _, hs, ha, rfl⟩, ?_, ?_, ?_, hres⟩
      · simp only [regOf, State.chan, Reg.mk.injEq] at hr ⊢
        obtain ⟨e1, e2, e3, e4, e5⟩ := hr
        refine ⟨?_, e2, e3, e4, e5⟩
        rw [hcnt t, e1]; simp
      · show lastPoll t (s.log ++ [_]) = _
        rw [lastPoll_snoc]; simp
      · show since t (s.log ++ [_]) = _
        rw [since_snoc]; simp
    · intro c
      exact (h.ledger c).other (ev := [Ev.poll t sl.ctx (poll sl.body sl.ctx).1 s.clock]) rfl rfl rfl
    · refine ⟨?_, h.core.chanLt, h.core.awDone, ?_, h.core.timers⟩
      · intro k hk
        by_cases hkt : k = t
        · exact h.core.taskLt k (by rw [hkt, hsl]; rfl)
        · refine h.core.taskLt k ?_
          have e : upd s.tasks t (some { sl with
              body := (poll sl.body sl.ctx).2, resume := .nothing, selectedArm := none, resumeChan := none,
              resumeTask := none }) k = s.tasks k := upd_ne _ _ hkt
          rw [← e]; exact hk
      · intro k hk
        show (upd s.tasks t _ k).isSome
        by_cases hkt : k = t
        · rw [hkt, upd_same]; rfl
        · rw [upd_ne _ _ hkt]; exact h.core.awTask k hk

/-- Picking only changes the ready list and the chooser, and picks a ready task, unless it crashes. -/
theorem pickReady_ok (s : State B) {t : Nat} (hp : s.pickReady.1 = some t) (hno : s.pickReady.2.crashed = false) :
    ∃ i ch, s.ready[i]? = some t ∧ s.pickReady.2 = { s with chooser := ch, ready := s.ready.eraseIdx i } := by
  have hidx : s.pickIndex.2.crashed = true ∨ ∃ ch, s.pickIndex.2 = { s with chooser := ch } := by
    unfold State.pickIndex
    split
    · exact Or.inr ⟨s.chooser, rfl⟩
    · exact Or.inr ⟨s.chooser, rfl⟩
    · exact Or.inr ⟨s.chooser, rfl⟩
    · exact decide_cases _ _ _
    · split <;> exact Or.inr ⟨s.chooser, rfl⟩
  unfold State.pickReady at *
  unfold State.removeReady at *
  rcases hidx with hc | ⟨ch, hc⟩
  · split at hno
    · cases hno
    · rw [show (({ s.pickIndex.2 with ready := s.pickIndex.2.ready.eraseIdx s.pickIndex.1 } : State B)).crashed = true
        from hc] at hno
      cases hno
  · rw [hc] at hp ⊢
    cases hg : s.ready[s.pickIndex.1]? with
    | none => simp only [hg] at hp; cases hp
    | some u =>
      simp only [hg, Option.some.injEq] at hp ⊢
      subst hp
      exact ⟨_, ch, hg, rfl⟩

theorem StepOk.congr {s s' : State B} {t : Nat} {st : Step B} (h : StepOk s t st) (h1 : s'.chans = s.chans)
    (h2 : s'.clock = s.clock) : StepOk s' t st := by
  cases st <;> simp only [StepOk, h1, h2] at h ⊢ <;> exact h

theorem crashed_cancel {s : State B} (r : Nat) (k : Option Nat) (h : s.crashed = true) :
    (s.cancel r k).crashed = true := h

theorem crashed_deliver {s : State B} (r c : Nat) (v : Payload) (h : s.crashed = true) :
    (s.deliver r c v).crashed = true := by
  unfold State.deliver
  split
  · split
    · rfl
    · exact crashed_win _ _ _ (crashed_modTask _ _ h)
  · exact crashed_markReady _ _ h

theorem crashed_takeFor {s s' : State B} (t c : Nat) (h : s.crashed = true) (e : s.takeFor t c = some s') :
    s'.crashed = true := by
  unfold State.takeFor at e
  split at e
  · cases e; exact crashed_refill _ (crashed_markReady _ _ (crashed_modChan _ _ h))
  · split at e
    · cases e; exact crashed_markReady _ _ (crashed_markReady _ _ (crashed_modChan _ _ h))
    · cases e

theorem crashed_registerAll (arms : List Arm) : ∀ {s : State B} (t i : Nat), s.crashed = true →
    (s.registerAll t i arms).crashed = true := by
  induction arms with
  | nil => intro s t i h; exact h
  | cons a as ih =>
    intro s t i h
    refine ih _ _ ?_
    cases a with
    | recv c => exact crashed_modChan _ _ h
    | timeout d =>
      simp only [State.register]
      split
      · exact h
      · rfl

theorem crashed_wakeAll (ws : List Nat) : ∀ {s : State B} (p : Payload), s.crashed = true →
    (s.wakeAll p ws).crashed = true := by
  induction ws with
  | nil => intro s p h; exact h
  | cons w ws ih => intro s p h; exact ih _ (crashed_markReady _ _ h)

theorem crashed_complete {s : State B} (t : Nat) (r : Result) (h : s.crashed = true) :
    (s.complete t r).crashed = true := crashed_wakeAll _ _ h

theorem crashed_wakeClosedAll (ws : List Nat) : ∀ {s : State B} (c : Nat), s.crashed = true →
    (s.wakeClosedAll c ws).crashed = true := by
  induction ws with
  | nil => intro s c h; exact h
  | cons w ws ih =>
    intro s c h
    refine ih _ ?_
    unfold State.wakeClosed
    split
    · exact crashed_win _ _ _ (crashed_modTask _ _ h)
    · exact crashed_markReady _ _ h

/-- A panic stays one. -/
theorem crashed_process {s : State B} (prioOf : B → Nat) (t : Nat) (st : Step B) (h : s.crashed = true) :
    (s.process prioOf t st).crashed = true := by
  cases st with
  | yield => exact crashed_markReady _ _ h
  | await u =>
    simp only [State.process, State.doAwait]
    split
    · exact crashed_markReady _ _ h
    · split
      · exact crashed_markReady _ _ h
      · exact crashed_modTask _ _ h
  | abort u =>
    refine crashed_markReady _ _ ?_
    unfold State.doAbort
    split
    · exact h
    · split
      · exact h
      · exact h
      · exact crashed_complete _ _ (crashed_modTask _ _ h)
  | close c => exact crashed_markReady _ _ (crashed_wakeClosedAll _ _ (crashed_modChan _ _ h))
  | exit v => exact crashed_complete _ _ (crashed_modTask _ _ h)
  | spawn b => exact crashed_markReady _ _ (crashed_modTask _ _ h)
  | newChan cap => exact crashed_markReady _ _ (crashed_modTask _ _ h)
  | send c p =>
    simp only [State.process, State.doSend]
    split
    · exact crashed_markReady _ _ (crashed_deliver _ _ _ (crashed_modChan _ _ h))
    · split
      · exact crashed_markReady _ _ (crashed_modChan _ _ h)
      · exact crashed_modTask _ _ (crashed_modChan _ _ h)
  | trySend c p =>
    simp only [State.process, State.doTrySend]
    split
    · exact crashed_markReady _ _ (crashed_deliver _ _ _ (crashed_modChan _ _ h))
    · split
      · exact crashed_markReady _ _ (crashed_modChan _ _ h)
      · exact crashed_markReady _ _ h
  | recv c =>
    simp only [State.process, State.doRecv]
    split
    · next e => exact crashed_takeFor _ _ h e
    · split
      · exact crashed_markReady _ _ h
      · exact crashed_modTask _ _ (crashed_modChan _ _ h)
  | tryRecv c =>
    simp only [State.process, State.doTryRecv]
    split
    · next e => exact crashed_takeFor _ _ h e
    · exact crashed_markReady _ _ h
  | sleep d =>
    simp only [State.process]
    split
    · exact crashed_modTask _ _ h
    · rfl
  | select arms =>
    simp only [State.process, State.doSelect]
    split
    · rfl
    · split
      · exact crashed_modTask _ _ (crashed_registerAll _ _ _ h)
      · split
        · rfl
        · refine crashed_winNow _ _ _ ?_
          unfold State.pickArm
          split
          · exact h
          · exact crashed_decide _ _ h
  | ioPending => exact crashed_modTask _ _ h

/-- A step that polls a task, spelled out. -/
theorem pollOnce_poll {s : State B} (poll : B → Ctx → Step B × B) (prioOf : B → Nat)
    (h : Inv s) {t0 : Nat} {ts : List Nat} (hr : s.ready = t0 :: ts)
    (hno : (s.pollOnce poll prioOf).2.crashed = false) :
    ∃ i ch t sl, s.ready[i]? = some t ∧ s.tasks t = some sl ∧
      s.pickReady.1 = some t ∧ s.pickReady.2 = { s with chooser := ch, ready := s.ready.eraseIdx i } ∧
      nextStep poll s = some (t, (poll sl.body sl.ctx).1) ∧
      s.pollOnce poll prioOf = (none, ({ s with
        chooser := ch
        ready := s.ready.eraseIdx i
        tasks := upd s.tasks t (some { sl with
            body := (poll sl.body sl.ctx).2, resume := .nothing, selectedArm := none, resumeChan := none,
            resumeTask := none })
        log := s.log ++ [.poll t sl.ctx (poll sl.body sl.ctx).1 s.clock] } : State B).process prioOf t
          (poll sl.body sl.ctx).1) := by
  cases hp : s.pickReady.1 with
  | none =>
    have hcr : s.pickReady.2.crashed = true := by
      unfold State.pickReady State.removeReady at *
      split at hp
      · rfl
      · cases hp
    simp only [State.pollOnce, hr, hp] at hno
    rw [hcr] at hno; cases hno
  | some t =>
    have hno' : s.pickReady.2.crashed = false := by
      cases hc : s.pickReady.2.crashed with
      | false => rfl
      | true =>
        simp only [State.pollOnce, hr, hp, State.dispatch, State.pollTask] at hno
        cases htk : s.pickReady.2.tasks t with
        | none => rw [htk] at hno; cases hno
        | some sl =>
          rw [htk] at hno
          simp only at hno
          rw [crashed_process prioOf t _ (by exact hc)] at hno
          cases hno
    obtain ⟨i, ch, h1, h2⟩ := pickReady_ok s hp hno'
    have hmem : t ∈ s.ready := List.mem_of_getElem? h1
    have hpos : 0 < (regOf s t).ready := List.count_pos_iff.mpr hmem
    have hsl : ∃ sl, s.tasks t = some sl := by
      cases h.status t with
      | absent ht hr => rw [hr] at hpos; exact absurd hpos (Nat.lt_irrefl 0)
      | ready sl ht => exact ⟨sl, ht⟩
      | done sl ht => exact ⟨sl, ht⟩
      | blocked sl st clk ht => exact ⟨sl, ht⟩
    obtain ⟨sl, hsl⟩ := hsl
    refine ⟨i, ch, t, sl, h1, hsl, rfl, h2, ?_, ?_⟩
    · simp only [nextStep, hr, hp, h2, hsl]
    · simp only [State.pollOnce, hr, hp, State.dispatch, State.pollTask, h2, hsl]

/-- One scheduler step preserves the invariant. -/
theorem step_inv {s : State B} (poll : B → Ctx → Step B × B) (prioOf : B → Nat) (h : Inv s)
    (hok : ∀ t st, nextStep poll s = some (t, st) → StepOk s t st)
    (hno : (s.pollOnce poll prioOf).2.crashed = false) : Inv (s.pollOnce poll prioOf).2 := by
  cases hr : s.ready with
  | nil =>
    by_cases ht : s.timers = []
    · simp only [State.pollOnce, hr, ht, if_true]; exact h
    · simp only [State.pollOnce, hr, ht, if_false] at hno ⊢
      exact (advance_inv h hr hno).1
  | cons t0 ts =>
    obtain ⟨i, ch, t, sl, h1, h2, _, _, h5, h6⟩ := pollOnce_poll poll prioOf h hr hno
    rw [h6] at hno ⊢
    obtain ⟨_, _, _, hpre⟩ := poll_pre (ch := ch) poll h h1 h2
    exact process_inv prioOf hpre ((hok _ _ h5).congr rfl rfl) hno

/-! ## Waking I/O tasks -/

theorem io_status {s : State B} {t : Nat} (h : Status s t) (hs : s.stateOf t = some .blockedIo) :
    ∃ clk sl, Loose s t .ioPending clk sl ∧ regOf s t = {} := by
  cases h with
  | absent ht => simp [State.stateOf, ht] at hs
  | ready sl ht hst => simp [State.stateOf, ht, hst] at hs
  | done sl ht hst => simp [State.stateOf, ht, hst] at hs
  | blocked sl st clk ht hl hw hr he hc hres ha hk =>
    simp only [State.stateOf, ht, Option.some.injEq] at hs
    rw [hs] at hw
    cases st <;> simp [waitState] at hw
    exact ⟨clk, sl, ⟨ht, ha, hc, hl, he, hres⟩, hr⟩

theorem wakeOne_eq {s : State B} {t : Nat} {sl : Slot B} (h : s.tasks t = some sl) (hc : sl.ctx = {}) :
    s.wakeOne t = s.markReady t .nothing := by
  have hres : sl.resume = .nothing := by
    simp only [Slot.ctx, Ctx.mk.injEq] at hc; exact hc.1
  simp only [State.wakeOne, State.markReady, State.modTask, h]
  rw [← hres]

theorem wakeEach_inv (ts : List Nat) : ∀ {s : State B}, ts.Nodup → Inv s →
    (∀ t ∈ ts, s.stateOf t = some .blockedIo) → Inv (s.wakeEach ts) ∧ (s.wakeEach ts).crashed = s.crashed := by
  induction ts with
  | nil => intro s _ h _; exact ⟨h, rfl⟩
  | cons t ts ih =>
    intro s hnd h hio
    obtain ⟨hnt, hnd⟩ := List.nodup_cons.mp hnd
    obtain ⟨clk, sl, l1, l2⟩ := io_status (h.status t) (hio t (by simp))
    have he := wakeOne_eq l1.slot l1.ctx
    have hc := markReady_calm l1.slot .nothing
    have hst : Status (s.markReady t .nothing) t := by
      refine markReady_status l1.slot _ l2 l1.arms l1.res l1.poll ?_
      rw [l1.since, l1.ctx]
      exact ⟨rfl, rfl⟩
    have hinv : Inv (s.markReady t .nothing) := by
      refine ⟨?_, fun c => (h.chans c).calm hc, ?_, h.core.calm hc⟩
      · intro u
        by_cases hu : u = t
        · rw [hu]; exact hst
        · exact (h.status u).frame hc.mono (markReady_same l1.slot _ hu)
      · exact h.ledger.quiet (markReady_log l1.slot _) hc.results fun k => ⟨(hc.chans k).2.1, (hc.chans k).2.2.1⟩
    simp only [State.wakeEach, he]
    obtain ⟨i1, i2⟩ := ih hnd hinv (by
      intro u hu
      have hut : u ≠ t := by rintro rfl; exact hnt hu
      rw [stateOf_same (markReady_same l1.slot _ hut)]
      exact hio u (by simp [hu]))
    exact ⟨i1, i2.trans hc.crashed⟩

theorem wakeIo_inv {s : State B} (h : Inv s) : Inv s.wakeIo ∧ s.wakeIo.crashed = s.crashed := by
  refine wakeEach_inv _ (List.nodup_range.filter _) h ?_
  intro t ht
  simp only [List.mem_filter, beq_iff_eq] at ht
  exact ht.2

/-- The initial state. -/
theorem init_inv (cfg : Config) (ch : Chooser) : Inv (State.init cfg ch : State B) := by
  refine ⟨fun t => .absent rfl rfl rfl rfl rfl, fun c => ?_, fun c => ?_, ?_⟩
  · exact ⟨fun n _ => Nat.zero_le _, fun hn => absurd rfl hn, fun hn => absurd rfl hn⟩
  · exact ⟨rfl, rfl, List.Sublist.refl _⟩
  · refine ⟨?_, ?_, fun _ _ => rfl, fun _ hn => absurd rfl hn, ?_⟩
    · intro t h; cases h
    · intro t h; cases h
    · intro e he; cases he

/-- Every reachable state satisfies the invariant. -/
theorem Reach.inv {poll : B → Ctx → Step B × B} {prioOf : B → Nat} {s : State B} (h : Reach poll prioOf s) :
    Inv s ∧ s.crashed = false := by
  induction h with
  | init cfg ch => exact ⟨init_inv cfg ch, rfl⟩
  | chan cap _ ih => exact ⟨addChan_inv ih.1 cap, ih.2⟩
  | task b main _ ih => exact ⟨addTask_inv ih.1 b _ main, ih.2⟩
  | step _ hok hno ih => exact ⟨step_inv poll prioOf ih.1 hok hno, hno⟩
  | wake _ ih => exact ⟨(wakeIo_inv ih.1).1, (wakeIo_inv ih.1).2.trans ih.2⟩

end Verif.Sched
