import Verif.Sched.Ops4
/-!
# Every step preserves the invariant: select
-/

namespace Verif.Sched
variable {B : Type}

/-- What registering arms adds to a channel. -/
def regChan (x : Nat) (arms : List Arm) (c : Nat) (ch : Chan) : Chan :=
  { ch with receivers := ch.receivers ++ List.replicate (arms.count (.recv c)) x }

theorem registerAll_eq (x : Nat) (arms : List Arm) : ∀ (s : State B) (i : Nat),
    (∀ c, .recv c ∈ arms → (s.chans c).isSome) → (∀ d, .timeout d ∈ arms → s.clock + d < 2 ^ 64) →
    s.registerAll x i arms = { s with
      chans := fun c => (s.chans c).map (regChan x arms c)
      timers := s.timers ++ (armTimers s.clock i arms).map fun e => ⟨e.1, x, e.2⟩ } := by
  induction arms with
  | nil =>
    intro s i _ _
    have : (fun c => (s.chans c).map (regChan x [] c)) = s.chans := by
      funext c
      cases s.chans c <;> simp [regChan]
    simp [State.registerAll, armTimers, this]
  | cons a as ih =>
    intro s i hc hd
    cases a with
    | recv c =>
      obtain ⟨ch, hch⟩ := Option.isSome_iff_exists.mp (hc c (by simp))
      have e : s.register x i (.recv c) = { s with chans := upd s.chans c (some
          { ch with receivers := ch.receivers ++ [x] }) } := by
        simp only [State.register, modChan_some hch]
      rw [State.registerAll, e, ih]
      · have hfun : (fun k => (upd s.chans c (some { ch with receivers := ch.receivers ++ [x] }) k).map (regChan x as k))
            = fun k => (s.chans k).map (regChan x (.recv c :: as) k) := by
          funext k
          by_cases hk : k = c
          · subst hk
            rw [upd_same, hch]
            simp [regChan, List.count_cons, List.replicate_succ]
          · rw [upd_ne _ _ hk]
            have : (Arm.recv c :: as).count (.recv k) = as.count (.recv k) := by
              rw [List.count_cons_of_ne]; simp [Ne.symm hk]
            cases s.chans k <;> simp [regChan, this]
        simp only [hfun, armTimers]
      · intro k hk
        show (upd s.chans c _ k).isSome
        by_cases hkc : k = c
        · rw [hkc, upd_same]; rfl
        · rw [upd_ne _ _ hkc]; exact hc k (by simp [hk])
      · intro d h; exact hd d (by simp [h])
    | timeout d =>
      have hlt := hd d (by simp)
      have e : s.register x i (.timeout d) = { s with timers := s.timers ++ [⟨s.clock + d, x, some i⟩] } := by
        simp only [State.register, hlt, if_true]
      rw [State.registerAll, e, ih]
      · have hfun : (fun k => (s.chans k).map (regChan x as k))
            = fun k => (s.chans k).map (regChan x (.timeout d :: as) k) := by
          funext k
          have : (Arm.timeout d :: as).count (.recv k) = as.count (.recv k) := by
            rw [List.count_cons_of_ne]; simp
          cases s.chans k <;> simp [regChan, this]
        simp only [hfun, armTimers, List.map_cons, List.append_assoc, List.singleton_append]
      · intro k hk; exact hc k (by simp [hk])
      · intro d h; exact hd d (by simp [h])

theorem readyArms_nil {s : State B} (arms : List Arm) : ∀ i, s.readyArms i arms = [] →
    ∀ c, .recv c ∈ arms → (s.chan c).canRecv = false := by
  induction arms with
  | nil => intro i _ c hc; cases hc
  | cons a as ih =>
    intro i h c hc
    cases a with
    | recv k =>
      simp only [State.readyArms] at h
      split at h
      · cases h
      · next hk =>
        simp only [List.mem_cons, Arm.recv.injEq] at hc
        rcases hc with rfl | hc
        · simpa using hk
        · exact ih _ h c hc
    | timeout d =>
      simp only [State.readyArms] at h
      simp only [List.mem_cons, reduceCtorEq, false_or] at hc
      exact ih _ h c hc

theorem readyArms_mem {s : State B} (arms : List Arm) : ∀ i w, w ∈ s.readyArms i arms →
    ∃ j c, w = i + j ∧ arms[j]? = some (.recv c) ∧ (s.chan c).canRecv = true := by
  induction arms with
  | nil => intro i w h; cases h
  | cons a as ih =>
    intro i w h
    cases a with
    | recv k =>
      simp only [State.readyArms] at h
      split at h
      · next hk =>
        simp only [List.mem_cons] at h
        rcases h with rfl | h
        · exact ⟨0, k, rfl, rfl, hk⟩
        · obtain ⟨j, c, e1, e2, e3⟩ := ih _ _ h
          exact ⟨j + 1, c, by omega, by simpa using e2, e3⟩
      · obtain ⟨j, c, e1, e2, e3⟩ := ih _ _ h
        exact ⟨j + 1, c, by omega, by simpa using e2, e3⟩
    | timeout d =>
      simp only [State.readyArms] at h
      obtain ⟨j, c, e1, e2, e3⟩ := ih _ _ h
      exact ⟨j + 1, c, by omega, by simpa using e2, e3⟩

theorem armTimers_mem {clk : Nat} (arms : List Arm) : ∀ i f a, (f, a) ∈ armTimers clk i arms →
    ∃ j d, a = some (i + j) ∧ arms[j]? = some (.timeout d) ∧ f = clk + d := by
  induction arms with
  | nil => intro i f a h; cases h
  | cons x as ih =>
    intro i f a h
    cases x with
    | recv k =>
      simp only [armTimers] at h
      obtain ⟨j, d, e1, e2, e3⟩ := ih _ _ _ h
      exact ⟨j + 1, d, by rw [e1]; congr 1; omega, by simpa using e2, e3⟩
    | timeout d =>
      simp only [armTimers, List.mem_cons, Prod.mk.injEq] at h
      rcases h with ⟨rfl, rfl⟩ | h
      · exact ⟨0, d, rfl, rfl, rfl⟩
      · obtain ⟨j, d, e1, e2, e3⟩ := ih _ _ _ h
        exact ⟨j + 1, d, by rw [e1]; congr 1; omega, by simpa using e2, e3⟩

/-- A select that parks. -/
theorem select_park {s : State B} {x : Nat} {arms : List Arm} (h : Pre s x (.select arms))
    (hok : StepOk s x (.select arms)) (hready : s.readyArms 0 arms = []) {s2 : State B}
    (hs2 : s2 = (s.registerAll x 0 arms).modTask x fun sl =>
        { sl with selectArms := some arms, state := .blockedSelect }) : Inv s2 ∧ s2.crashed = s.crashed := by
  obtain ⟨ok1, ok2, ok3⟩ := hok
  rw [registerAll_eq x arms s 0 ok1 ok2] at hs2
  obtain ⟨sl, g1, g2, g3, g4⟩ := h.run.slot
  have hchan : ∀ c, (({ s with
      chans := fun c => (s.chans c).map (regChan x arms c)
      timers := s.timers ++ (armTimers s.clock 0 arms).map fun e => ⟨e.1, x, e.2⟩ } : State B)).chan c =
      regChan x arms c (s.chan c) := by
    intro c
    simp only [State.chan]
    cases hc : s.chans c with
    | some ch => rfl
    | none =>
      have : Arm.recv c ∉ arms := by
        intro hm
        have := ok1 c hm
        simp [hc] at this
      simp [regChan, List.count_eq_zero.mpr this]
  have hm : Mono s ({ s with
      chans := fun c => (s.chans c).map (regChan x arms c)
      timers := s.timers ++ (armTimers s.clock 0 arms).map fun e => ⟨e.1, x, e.2⟩ } : State B) := by
    refine ⟨rfl, rfl, fun _ _ h => h, ?_, fun _ sl h => ⟨sl, h⟩⟩
    intro c ch hc
    exact ⟨regChan x arms c ch, by simp only [hc, Option.map_some], rfl, id⟩
  have hsame : ∀ t, t ≠ x → Same s ({ s with
      chans := fun c => (s.chans c).map (regChan x arms c)
      timers := s.timers ++ (armTimers s.clock 0 arms).map fun e => ⟨e.1, x, e.2⟩ } : State B) t := by
    intro t ht
    refine ⟨rfl, ?_, rfl, rfl, rfl⟩
    simp only [regOf, hchan, Reg.mk.injEq]
    refine ⟨trivial, ?_, rfl, ?_, trivial⟩
    · funext c
      simp only [regChan, List.count_append, List.count_replicate]
      simp [Ne.symm ht]
    · rw [List.filter_append, List.filter_map]
      have : List.filter ((fun e : Timer => decide (e.tid = t)) ∘ fun e : Nat × Option Nat => (⟨e.1, x, e.2⟩ : Timer))
          (armTimers s.clock 0 arms) = [] := by
        rw [List.filter_eq_nil_iff]; intro e _; simp [Ne.symm ht]
      rw [this]; simp
  have hreg : regOf ({ s with
      chans := fun c => (s.chans c).map (regChan x arms c)
      timers := s.timers ++ (armTimers s.clock 0 arms).map fun e => ⟨e.1, x, e.2⟩ } : State B) x
      = waitReg s.clock (.select arms : Step B) := by
    have e := h.run.reg
    simp only [regOf, hchan, Reg.mk.injEq, waitReg] at e ⊢
    obtain ⟨e1, e2, e3, e4, e5⟩ := e
    refine ⟨e1, ?_, e3, ?_, e5⟩
    · funext c
      simp only [regChan, List.count_append, congrFun e2 c]
      simp
    · rw [List.filter_append, List.map_append, e4, List.filter_map]
      have : List.filter ((fun e : Timer => decide (e.tid = x)) ∘ fun e : Nat × Option Nat => (⟨e.1, x, e.2⟩ : Timer))
          (armTimers s.clock 0 arms) = armTimers s.clock 0 arms := by
        rw [List.filter_eq_self]; intro e _; simp
      rw [this]
      simp [List.map_map, Function.comp_def]
  have hch : ∀ c, ChanOk (regChan x arms c (s.chan c)) := by
    intro c
    have hcc := h.chans c
    refine ⟨hcc.bound, ?_, hcc.send⟩
    intro hn
    by_cases hm : Arm.recv c ∈ arms
    · have := readyArms_nil arms 0 hready c hm
      simp only [Chan.canRecv, Bool.or_eq_false_iff, Bool.not_eq_false', List.isEmpty_iff] at this
      exact ⟨this.1.1, this.1.2, this.2⟩
    · have : (regChan x arms c (s.chan c)).receivers = (s.chan c).receivers := by
        simp [regChan, List.count_eq_zero.mpr hm]
      rw [this] at hn
      exact hcc.recv hn
  have hcore : Core ({ s with
      chans := fun c => (s.chans c).map (regChan x arms c)
      timers := s.timers ++ (armTimers s.clock 0 arms).map fun e => ⟨e.1, x, e.2⟩ } : State B) := by
    refine ⟨h.core.taskLt, ?_, h.core.awDone, h.core.awTask, ?_⟩
    · intro c hc
      refine h.core.chanLt c ?_
      simpa using hc
    · intro e he
      simp only [List.mem_append, List.mem_map] at he
      rcases he with he | ⟨⟨f, a⟩, hfa, rfl⟩
      · exact h.core.timers e he
      · obtain ⟨_, d, _, _, rfl⟩ := armTimers_mem arms 0 f a hfa
        exact Nat.le_add_right _ _
  have hled : Ledger ({ s with
      chans := fun c => (s.chans c).map (regChan x arms c)
      timers := s.timers ++ (armTimers s.clock 0 arms).map fun e => ⟨e.1, x, e.2⟩ } : State B) := by
    refine h.ledger.quiet rfl rfl ?_
    intro k; rw [hchan]; exact ⟨rfl, rfl⟩
  have hf : (({ s with
      chans := fun c => (s.chans c).map (regChan x arms c)
      timers := s.timers ++ (armTimers s.clock 0 arms).map fun e => ⟨e.1, x, e.2⟩ } : State B)).tasks = s.tasks ∧
    (({ s with
      chans := fun c => (s.chans c).map (regChan x arms c)
      timers := s.timers ++ (armTimers s.clock 0 arms).map fun e => ⟨e.1, x, e.2⟩ } : State B)).log = s.log ∧
    (({ s with
      chans := fun c => (s.chans c).map (regChan x arms c)
      timers := s.timers ++ (armTimers s.clock 0 arms).map fun e => ⟨e.1, x, e.2⟩ } : State B)).results = s.results ∧
    (({ s with
      chans := fun c => (s.chans c).map (regChan x arms c)
      timers := s.timers ++ (armTimers s.clock 0 arms).map fun e => ⟨e.1, x, e.2⟩ } : State B)).crashed = s.crashed :=
    ⟨rfl, rfl, rfl, rfl⟩
  generalize ({ s with
      chans := fun c => (s.chans c).map (regChan x arms c)
      timers := s.timers ++ (armTimers s.clock 0 arms).map fun e => ⟨e.1, x, e.2⟩ } : State B) = s0 at *
  obtain ⟨f1, f2, f3, f4⟩ := hf
  have hsl : s0.tasks x = some sl := by rw [f1]; exact g1
  have hcalm := modTask_calm hsl (fun sl => { sl with selectArms := some arms, state := .blockedSelect })
  have hmt := modTask_some hsl (fun sl => { sl with selectArms := some arms, state := .blockedSelect })
  have hsm : ∀ t, t ≠ x → Same s0 s2 t := fun t ht => by rw [hs2]; exact modTask_same hsl _ ht
  rw [← hs2] at hcalm hmt
  refine ⟨⟨?_, fun c => (by rw [hchan]; exact hch c : ChanOk (s0.chan c)).calm hcalm, ?_, hcore.calm hcalm⟩,
    hcalm.crashed.trans f4⟩
  · intro t
    by_cases ht : t = x
    · rw [ht, hmt]
      refine .blocked { sl with selectArms := some arms, state := .blockedSelect } (.select arms) s.clock
        (upd_same _ _ _) ?_ rfl hreg ?_ g4 ?_ rfl ok3
      · show lastPoll x s0.log = _
        rw [f2]; exact h.run.poll
      · show since x s0.log = _
        rw [f2]; exact h.run.since
      · show s0.results x = _
        rw [f3]; exact h.run.res
    · exact (h.status t ht).frame (hm.trans hcalm.mono) ((hsame t ht).trans (hsm t ht))
  · refine hled.quiet ?_ hcalm.results fun k => ⟨(hcalm.chans k).2.1, (hcalm.chans k).2.2.1⟩
    rw [hmt]

/-- Readying the running task with a winning arm. -/
theorem Mid.win {s : State B} {x : Nat} {st : Step B} {clk : Nat} {evs : List (Ev B)}
    (h : Mid s x st clk evs {}) {v : Payload} {i : Nat}
    (ha : Answer s x clk evs { resumed := v, selected := some i } st) :
    Inv (s.win x i v) ∧ (s.win x i v).crashed = s.crashed := by
  obtain ⟨sl, h1, h2, h3, h4⟩ := h.run.slot
  have hc := win_calm h1 i v
  have e := win_some h1 i v
  refine ⟨⟨?_, fun c => (h.chans c).calm hc, ?_, h.core.calm hc⟩, hc.crashed⟩
  · intro t
    by_cases ht : t = x
    · rw [ht]
      refine .ready { sl with resume := v, selectedArm := some i, state := .ready }
        (by rw [e]; exact upd_same _ _ _) rfl ?_ h3 (by rw [e]; exact h.run.res) ?_
      · rw [e]
        have hr := h.run.reg
        simp only [regOf, State.chan, Reg.mk.injEq] at hr ⊢
        obtain ⟨e1, e2, e3, e4, e5⟩ := hr
        refine ⟨?_, e2, e3, e4, e5⟩
        rw [List.count_append, e1]; simp
      · have hl : lastPoll x (s.win x i v).log = some (st, clk) := by rw [e]; exact h.run.poll
        have hs : since x (s.win x i v).log = evs := by rw [e]; exact h.run.since
        simp only [Resumable, hl, hs]
        have hctx : Slot.ctx { sl with resume := v, selectedArm := some i, state := .ready } =
            { resumed := v, selected := some i } := by
          simp only [Slot.ctx, Ctx.mk.injEq] at h4 ⊢
          exact ⟨trivial, trivial, h4.2.2.1, h4.2.2.2⟩
        rw [hctx]
        exact ha.mono hc.mono
    · exact (h.status t ht).frame hc.mono (win_same h1 i v ht)
  · exact h.ledger.quiet (by rw [e]) hc.results fun k => ⟨(hc.chans k).2.1, (hc.chans k).2.2.1⟩

/-- A select that wins at once. -/
theorem select_win {s : State B} {x : Nat} {arms : List Arm} (h : Pre s x (.select arms)) {w c : Nat}
    (hc : (s.chans c).isSome) (hw : arms[w]? = some (.recv c)) (hcan : (s.chan c).canRecv = true) :
    Inv (s.winNow x arms w) ∧ (s.winNow x arms w).crashed = s.crashed := by
  obtain ⟨ch, hc⟩ := Option.isSome_iff_exists.mp hc
  simp only [State.winNow, hw]
  unfold State.takeOne
  rw [chan_some hc] at hcan ⊢
  cases hq : ch.queue with
  | cons v q =>
    obtain ⟨k1, k2⟩ := takeOne_queue h hc hq rfl
    obtain ⟨g1, g2⟩ := k1.win (v := v) (i := w) ⟨w, Or.inl ⟨c, hw, Or.inl ⟨v, rfl, rfl⟩⟩⟩
    exact ⟨g1, g2.trans k2⟩
  | nil =>
    cases hs : ch.senders with
    | cons yp rest =>
      obtain ⟨y, p⟩ := yp
      obtain ⟨k1, k2⟩ := takeOne_sender h hc hq hs rfl
      obtain ⟨g1, g2⟩ := k1.win (v := p) (i := w) ⟨w, Or.inl ⟨c, hw, Or.inl ⟨p, rfl, rfl⟩⟩⟩
      exact ⟨g1, g2.trans k2⟩
    | nil =>
      simp only [Chan.canRecv, hq, hs, List.isEmpty_nil, Bool.not_true, Bool.or_self, Bool.false_or] at hcan
      exact h.mid.win (v := .nothing) (i := w) ⟨w, Or.inl ⟨c, hw, Or.inr ⟨rfl, rfl, ch, hc, hcan⟩⟩⟩

/-- A state differing only in the chooser. -/
theorem Pre.chooser {s : State B} {x : Nat} {st : Step B} (h : Pre s x st) (ch : Chooser) :
    Pre { s with chooser := ch } x st := by
  have hm : Mono s { s with chooser := ch } :=
    ⟨rfl, rfl, fun _ _ h => h, fun _ ch h => ⟨ch, h, rfl, id⟩, fun _ sl h => ⟨sl, h⟩⟩
  exact ⟨fun t ht => (h.status t ht).frame hm ⟨rfl, rfl, rfl, rfl, rfl⟩, Run.frame (s := s) ⟨rfl, rfl, rfl, rfl, rfl⟩ h.run,
    h.chans, h.ledger, ⟨h.core.taskLt, h.core.chanLt, h.core.awDone, h.core.awTask, h.core.timers⟩⟩

/-- One decision either crashes or only moves the chooser. -/
theorem decide_cases (s : State B) (k : Kind) (n : Nat) :
    (s.decide k n).2.crashed = true ∨ ∃ ch, (s.decide k n).2 = { s with chooser := ch } := by
  unfold State.decide
  cases h : s.chooser.decide k n with
  | none => exact Or.inl rfl
  | some q => exact Or.inr ⟨q.2, rfl⟩

theorem crashed_modTask {s : State B} (t : Nat) (f : Slot B → Slot B) (h : s.crashed = true) :
    (s.modTask t f).crashed = true := by
  unfold State.modTask; split
  · rfl
  · exact h

theorem crashed_modChan {s : State B} (c : Nat) (f : Chan → Chan) (h : s.crashed = true) :
    (s.modChan c f).crashed = true := by
  unfold State.modChan; split
  · rfl
  · exact h

theorem crashed_markReady {s : State B} (t : Nat) (v : Payload) (h : s.crashed = true) :
    (s.markReady t v).crashed = true := crashed_modTask _ _ h

theorem crashed_win {s : State B} (t i : Nat) (v : Payload) (h : s.crashed = true) :
    (s.win t i v).crashed = true := crashed_modTask _ _ h

theorem crashed_refill {s : State B} (c : Nat) (h : s.crashed = true) : (s.refill c).crashed = true := by
  unfold State.refill
  split
  · split
    · exact h
    · exact crashed_markReady _ _ (crashed_modChan _ _ h)
  · exact h

theorem crashed_takeOne {s : State B} (t c : Nat) (h : s.crashed = true) : (s.takeOne t c).2.crashed = true := by
  unfold State.takeOne
  split
  · exact crashed_refill _ (crashed_modChan _ _ h)
  · split
    · exact crashed_markReady _ _ (crashed_modChan _ _ h)
    · exact h

theorem crashed_winNow {s : State B} (t : Nat) (arms : List Arm) (i : Nat) (h : s.crashed = true) :
    (s.winNow t arms i).crashed = true := by
  unfold State.winNow
  split
  · exact crashed_win _ _ _ (crashed_takeOne _ _ h)
  · rfl

theorem doSelect_inv {s : State B} {x : Nat} {arms : List Arm} (h : Pre s x (.select arms))
    (hok : StepOk s x (.select arms)) (hno : (s.doSelect x arms).crashed = false) :
    Inv (s.doSelect x arms) := by
  unfold State.doSelect at hno ⊢
  split at hno
  · cases hno
  · next hany =>
    rw [if_neg hany]
    cases hr : s.readyArms 0 arms with
    | nil => exact (select_park h hok hr rfl).1
    | cons i is =>
      rw [hr] at hno
      simp only at hno ⊢
      cases hp : (s.pickArm (i :: is)).1 with
      | none => rw [hp] at hno; cases hno
      | some w =>
        rw [hp] at hno
        simp only at hno ⊢
        have hmem : w ∈ i :: is := by
          unfold State.pickArm at hp
          split at hp <;> exact List.mem_of_getElem? hp
        rw [← hr] at hmem
        obtain ⟨j, c, e1, e2, e3⟩ := readyArms_mem arms 0 w hmem
        rw [Nat.zero_add] at e1
        subst e1
        have hcs := hok.1 c (List.mem_of_getElem? e2)
        have hst : (s.pickArm (i :: is)).2.crashed = true ∨
            ∃ ch, (s.pickArm (i :: is)).2 = { s with chooser := ch } := by
          unfold State.pickArm
          split
          · exact Or.inr ⟨s.chooser, rfl⟩
          · exact decide_cases _ _ _
        rcases hst with hst | ⟨ch, hst⟩
        · rw [crashed_winNow _ _ _ hst] at hno; cases hno
        · rw [hst]
          exact (select_win (h.chooser ch) hcs e2 e3).1

end Verif.Sched
