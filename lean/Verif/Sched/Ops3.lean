import Verif.Sched.Ops2
/-!
# Every step preserves the invariant: timers, tasks, channels
-/

namespace Verif.Sched
variable {B : Type}

/-- Adding a timer. -/
theorem timer_push {s : State B} {x f : Nat} {a : Option Nat} (hcore : Core s) (hf : s.clock ≤ f) {s1 : State B}
    (hs1 : s1 = { s with timers := s.timers ++ [⟨f, x, a⟩] }) :
    (∀ t, t ≠ x → Same s s1 t) ∧ regOf s1 x = { regOf s x with timers := (regOf s x).timers ++ [(f, a)] } ∧
    Mono s s1 ∧ Core s1 := by
  subst hs1
  refine ⟨?_, ?_, ⟨rfl, rfl, fun _ _ h => h, fun _ ch h => ⟨ch, h, rfl, id⟩, fun _ sl h => ⟨sl, h⟩⟩, ?_⟩
  · intro t ht
    refine ⟨rfl, ?_, rfl, rfl, rfl⟩
    simp [regOf, State.chan, List.filter_append, Ne.symm ht]
  · simp [regOf, State.chan, List.filter_append]
  · refine ⟨hcore.taskLt, hcore.chanLt, hcore.awDone, hcore.awTask, ?_⟩
    intro e he
    simp only [List.mem_append, List.mem_singleton] at he
    rcases he with he | rfl
    · exact hcore.timers e he
    · exact hf

/-- Parking finishes a step. -/
theorem park_inv {s : State B} {x : Nat} {st : Step B} {clk : Nat} {ts : TState}
    (hs : ∀ t, t ≠ x → Status s t)
    (hsl : ∃ sl, s.tasks x = some sl ∧ sl.selectArms = armsFor st ∧ sl.ctx = {})
    (hl : lastPoll x s.log = some (st, clk)) (he : since x s.log = [])
    (hres : s.results x = none) (hw : waitState st = some ts) (hr : regOf s x = waitReg clk st)
    (hk : ArmsOk st) (hch : ∀ c, ChanOk (s.chan c)) (hled : Ledger s) (hcore : Core s) :
    Inv (s.park x ts) ∧ (s.park x ts).crashed = s.crashed := by
  obtain ⟨sl, h1, h2, h3⟩ := hsl
  have hcalm : Calm s (s.park x ts) := modTask_calm h1 _
  refine ⟨⟨park_status hs h1 h3 h2 hl he hres hw hr hk, fun c => (hch c).calm hcalm, ?_, hcore.calm hcalm⟩,
    hcalm.crashed⟩
  exact hled.quiet (by rw [park_some h1]) hcalm.results fun k => ⟨(hcalm.chans k).2.1, (hcalm.chans k).2.2.1⟩

theorem Pre.slot' {s : State B} {x : Nat} {st : Step B} (h : Pre s x st) :
    ∃ sl, s.tasks x = some sl ∧ sl.selectArms = none ∧ sl.ctx = {} := by
  obtain ⟨sl, h1, _, h3, h4⟩ := h.run.slot
  exact ⟨sl, h1, h3, h4⟩

theorem sleep_inv {s : State B} {x d : Nat} (h : Pre s x (.sleep d)) {s2 : State B}
    (hs2 : s2 = ({ s with timers := s.timers ++ [⟨s.clock + d, x, none⟩] } : State B).park x .blockedTimer) :
    Inv s2 ∧ s2.crashed = s.crashed := by
  obtain ⟨k1, k2, k3, k4⟩ := timer_push (x := x) (a := none) h.core (Nat.le_add_right s.clock d) rfl
  subst hs2
  refine park_inv (st := .sleep d) (clk := s.clock) ?_ h.slot' h.run.poll h.run.since h.run.res rfl ?_ trivial
    h.chans h.ledger k4
  · intro t ht; exact (h.status t ht).frame k3 (k1 t ht)
  · rw [k2, h.run.reg]; rfl

theorem io_inv {s : State B} {x : Nat} (h : Pre s x .ioPending) :
    Inv (s.park x .blockedIo) ∧ (s.park x .blockedIo).crashed = s.crashed :=
  park_inv (st := .ioPending) h.status h.slot' h.run.poll h.run.since h.run.res rfl (by rw [h.run.reg]; rfl)
    trivial h.chans h.ledger h.core

theorem doAwait_inv {s : State B} {x u : Nat} (h : Pre s x (.await u)) :
    Inv (s.doAwait x u) ∧ (s.doAwait x u).crashed = s.crashed := by
  unfold State.doAwait
  cases hr : s.results u with
  | some r => exact h.mid.finish (v := r.payload) (Or.inl ⟨r, rfl, hr, rfl⟩)
  | none =>
    cases ht : s.tasks u with
    | none =>
      have hrun := run_note h.run (e := .missing x u) (by intros; simp)
      have hsin : since x (s.log ++ [.missing x u]) = [.missing x u] := by
        rw [since_snoc]
        simp only [if_true, h.run.since, List.nil_append]
      rw [hsin] at hrun
      refine Mid.finish (s := s.note (.missing x u)) (v := .nothing) (clk := s.clock)
        ⟨?_, hrun, h.chans, ?_, h.core.calm (note_calm _ _)⟩ (Or.inr ⟨rfl, rfl⟩)
      · intro t ht
        exact (h.status t ht).frame (note_mono _ _) (note_same _ _ (by simpa [concerns] using Ne.symm ht))
      · intro c
        have := (h.ledger c).other (ev := [Ev.missing x u]) rfl rfl rfl
        exact this
    | some sl =>
      simp only
      have hm : Mono s { s with awaiters := upd s.awaiters u (s.awaiters u ++ [x]) } :=
        ⟨rfl, rfl, fun _ _ h => h, fun _ ch h => ⟨ch, h, rfl, id⟩, fun _ sl h => ⟨sl, h⟩⟩
      refine park_inv (st := .await u) (clk := s.clock) ?_ h.slot' h.run.poll h.run.since h.run.res rfl ?_ trivial
        h.chans h.ledger ?_
      · intro t htx
        refine (h.status t htx).frame hm ⟨rfl, ?_, rfl, rfl, rfl⟩
        simp only [regOf, State.chan, Reg.mk.injEq, true_and]
        funext k
        by_cases hk : k = u
        · subst hk; rw [upd_same]; simp [List.count_append, List.count_singleton, Ne.symm htx]
        · rw [upd_ne _ _ hk]
      · have e := h.run.reg
        simp only [regOf, State.chan, Reg.mk.injEq] at e ⊢
        obtain ⟨e1, e2, e3, e4, e5⟩ := e
        simp only [waitReg, e1, e4, Reg.mk.injEq, true_and]
        refine ⟨e2, e3, ?_⟩
        funext k
        have := congrFun e5 k
        by_cases hk : k = u
        · subst hk; simp only [upd_same, if_true]; simp only [List.count_append, this]; simp
        · simp only [upd_ne _ _ hk, hk, if_false]; exact this
      · refine ⟨h.core.taskLt, h.core.chanLt, ?_, ?_, h.core.timers⟩
        · intro k hk
          have hku : k ≠ u := by intro e; rw [e] at hk; simp [hr] at hk
          show upd s.awaiters u _ k = []
          rw [upd_ne _ _ hku]; exact h.core.awDone k hk
        · intro k hk
          by_cases hku : k = u
          · subst hku; simp [ht]
          · refine h.core.awTask k ?_
            intro e; apply hk
            show upd s.awaiters u _ k = []
            rw [upd_ne _ _ hku]; exact e

/-! ## Finishing a task -/

/-- Waking waiters whose registrations are gone. -/
theorem wakeAll_ok {x : Nat} {r : Result} (ws : List Nat) : ∀ {s : State B}, ws.Nodup →
    s.results x = some r →
    (∀ w ∈ ws, ∃ clk sl, Loose s w (.await x) clk sl ∧ regOf s w = {}) →
    Calm s (s.wakeAll r.payload ws) ∧ (s.wakeAll r.payload ws).log = s.log ∧
    (∀ t, t ∉ ws → Same s (s.wakeAll r.payload ws) t) ∧ (∀ w ∈ ws, Status (s.wakeAll r.payload ws) w) := by
  induction ws with
  | nil =>
    intro s _ _ _
    exact ⟨Calm.refl _, rfl, fun t _ => Same.refl _ _, fun w hw => absurd hw (List.not_mem_nil)⟩
  | cons w ws ih =>
    intro s hnd hres hl
    obtain ⟨hw, hnd⟩ := List.nodup_cons.mp hnd
    obtain ⟨clk, sl, l1, l2⟩ := hl w (by simp)
    have hc := markReady_calm l1.slot r.payload
    have hsm : ∀ t, t ≠ w → Same s (s.markReady w r.payload) t := fun t ht => markReady_same l1.slot _ ht
    have hst : Status (s.markReady w r.payload) w := by
      refine markReady_status l1.slot _ l2 l1.arms l1.res l1.poll ?_
      rw [l1.since, l1.ctx]
      exact Or.inl ⟨r, rfl, hres, rfl⟩
    obtain ⟨i1, i2, i3, i4⟩ := ih (s := s.markReady w r.payload) hnd (by rw [hc.results]; exact hres) (by
      intro v hv
      have hvw : v ≠ w := by rintro rfl; exact hw hv
      obtain ⟨clk', sl', m1, m2⟩ := hl v (by simp [hv])
      exact ⟨clk', sl', m1.frame (hsm v hvw), (hsm v hvw).reg.trans m2⟩)
    refine ⟨hc.trans i1, i2.trans (markReady_log l1.slot _), ?_, ?_⟩
    · intro t ht
      simp only [List.mem_cons, not_or] at ht
      exact (hsm t ht.1).trans (i3 t ht.2)
    · intro v hv
      simp only [List.mem_cons] at hv
      rcases hv with rfl | hv
      · exact hst.frame i1.mono (i3 v hw)
      · exact i4 v hv

/-- A task found among the awaiters of `x` is blocked awaiting `x`. -/
theorem awaiter_blocked {s : State B} {w x : Nat} (h : Status s w) (hm : w ∈ s.awaiters x) :
    ∃ clk sl, Loose s w (.await x) clk sl ∧ regOf s w = waitReg clk (.await x : Step B) ∧
      (s.awaiters x).count w = 1 := by
  have hpos : 0 < (regOf s w).awaits x := List.count_pos_iff.mpr hm
  cases h with
  | absent ht hr => rw [hr] at hpos; exact absurd hpos (Nat.lt_irrefl 0)
  | ready sl ht hs hr => rw [hr] at hpos; exact absurd hpos (Nat.lt_irrefl 0)
  | done sl ht hs hr => rw [hr] at hpos; exact absurd hpos (Nat.lt_irrefl 0)
  | blocked sl st clk ht hl hs hr he hc hres ha hk =>
    rw [hr] at hpos
    cases st with
    | await u =>
      simp only [waitReg] at hpos
      by_cases hxu : x = u
      · subst hxu
        refine ⟨clk, sl, ⟨ht, ha, hc, hl, he, hres⟩, hr, ?_⟩
        have e : (s.awaiters x).count w = (waitReg clk (.await x : Step B)).awaits x := by rw [← hr]; rfl
        rw [e]; simp [waitReg]
      · simp [hxu] at hpos
    | _ => simp [waitReg] at hpos

/-- Recording a result and waking the awaiters. -/
theorem complete_ok {s : State B} {x : Nat} {r : Result} {P : Nat → Prop} (hs : ∀ t, P t → t ≠ x → Status s t)
    (hP : ∀ w ∈ s.awaiters x, P w)
    (hsl : ∃ sl, s.tasks x = some sl ∧ sl.state = .done) (hreg : regOf s x = {}) (hres : s.results x = none)
    (hcore : Core s) :
    (∀ t, P t → Status (s.complete x r) t) ∧ Status (s.complete x r) x ∧
    (∀ t, t ∉ s.awaiters x → t ≠ x → Same s (s.complete x r) t) ∧
    (∀ k, ((s.complete x r).chans k).isSome = (s.chans k).isSome) ∧
    (∀ k, ((s.complete x r).chan k).queue = (s.chan k).queue ∧
      ((s.complete x r).chan k).senders = (s.chan k).senders) ∧
    ((∀ k, ChanOk (s.chan k)) → ∀ k, ChanOk ((s.complete x r).chan k)) ∧
    Core (s.complete x r) ∧ (s.complete x r).crashed = s.crashed ∧ (s.complete x r).log = s.log ∧
    (s.complete x r).results = upd s.results x (some r) := by
  have hxaw : x ∉ s.awaiters x := by
    intro hm
    have : (regOf s x).awaits x = 0 := by rw [hreg]
    exact absurd (List.count_pos_iff.mpr hm) (by simp only [regOf] at this; omega)
  have hm : Mono s { s with awaiters := upd s.awaiters x [], results := upd s.results x (some r) } := by
    refine ⟨rfl, rfl, ?_, fun _ ch h => ⟨ch, h, rfl, id⟩, fun _ sl h => ⟨sl, h⟩⟩
    intro u r' h
    have : u ≠ x := by rintro rfl; rw [hres] at h; cases h
    show upd s.results x _ u = _
    rw [upd_ne _ _ this]; exact h
  have haw : ∀ t, (∀ u, u ≠ x → (upd s.awaiters x [] u).count t = (s.awaiters u).count t) := by
    intro t u hu; rw [upd_ne _ _ hu]
  have hsame : ∀ t, t ∉ s.awaiters x → t ≠ x →
      Same s { s with awaiters := upd s.awaiters x [], results := upd s.results x (some r) } t := by
    intro t ht htx
    refine ⟨rfl, ?_, rfl, rfl, upd_ne _ _ htx⟩
    simp only [regOf, State.chan, Reg.mk.injEq, true_and]
    funext u
    by_cases hu : u = x
    · subst hu
      rw [upd_same, List.count_nil]
      exact (List.count_eq_zero.mpr ht).symm
    · exact haw t u hu
  have hregx : regOf { s with awaiters := upd s.awaiters x [], results := upd s.results x (some r) } x = {} := by
    have e := hreg
    simp only [regOf, State.chan, Reg.mk.injEq] at e ⊢
    obtain ⟨e1, e2, e3, e4, e5⟩ := e
    refine ⟨e1, e2, e3, e4, ?_⟩
    funext u
    by_cases hu : u = x
    · subst hu; rw [upd_same]; rfl
    · rw [haw x u hu]; exact congrFun e5 u
  have hnd : (s.awaiters x).Nodup := by
    rw [List.nodup_iff_count]
    intro w
    by_cases hw : w ∈ s.awaiters x
    · have hwx : w ≠ x := by rintro rfl; exact hxaw hw
      obtain ⟨_, _, _, _, e⟩ := awaiter_blocked (hs w (hP w hw) hwx) hw
      omega
    · rw [List.count_eq_zero.mpr hw]; omega
  have hcore1 : Core { s with awaiters := upd s.awaiters x [], results := upd s.results x (some r) } := by
    refine ⟨hcore.taskLt, hcore.chanLt, ?_, ?_, hcore.timers⟩
    · intro u hu
      show upd s.awaiters x [] u = []
      by_cases hux : u = x
      · rw [hux, upd_same]
      · rw [upd_ne _ _ hux]
        refine hcore.awDone u ?_
        have : upd s.results x (some r) u = s.results u := upd_ne _ _ hux
        rw [← this]; exact hu
    · intro u hu
      refine hcore.awTask u ?_
      intro e; apply hu
      show upd s.awaiters x [] u = []
      by_cases hux : u = x
      · rw [hux, upd_same]
      · rw [upd_ne _ _ hux]; exact e
  have hloose : ∀ w ∈ s.awaiters x, ∃ clk sl,
      Loose { s with awaiters := upd s.awaiters x [], results := upd s.results x (some r) } w (.await x) clk sl ∧
      regOf { s with awaiters := upd s.awaiters x [], results := upd s.results x (some r) } w = {} := by
    intro w hw
    have hwx : w ≠ x := by rintro rfl; exact hxaw hw
    obtain ⟨clk, sl, l1, l2, _⟩ := awaiter_blocked (hs w (hP w hw) hwx) hw
    refine ⟨clk, sl, ⟨l1.slot, l1.arms, l1.ctx, l1.poll, l1.since, ?_⟩, ?_⟩
    · show upd s.results x _ w = none
      rw [upd_ne _ _ hwx]; exact l1.res
    · have e := l2
      simp only [regOf, State.chan, waitReg, Reg.mk.injEq] at e ⊢
      obtain ⟨e1, e2, e3, e4, e5⟩ := e
      refine ⟨e1, e2, e3, e4, ?_⟩
      funext u
      by_cases hu : u = x
      · subst hu; rw [upd_same]; rfl
      · rw [haw w u hu, congrFun e5 u]; simp [hu]
  obtain ⟨sl, hsl1, hsl2⟩ := hsl
  obtain ⟨k1, k2, k3, k4⟩ := wakeAll_ok (s := { s with awaiters := upd s.awaiters x [], results := upd s.results x (some r) })
    (x := x) (r := r) (s.awaiters x) hnd (upd_same _ _ _) hloose
  have hcomp : s.complete x r = State.wakeAll
    { s with awaiters := upd s.awaiters x [], results := upd s.results x (some r) } r.payload (s.awaiters x) := rfl
  rw [hcomp]
  have hx : Status (State.wakeAll { s with awaiters := upd s.awaiters x [], results := upd s.results x (some r) }
      r.payload (s.awaiters x)) x := by
    have hsx := k3 x hxaw
    refine .done sl (hsx.task.trans hsl1) hsl2 (hsx.reg.trans hregx) ?_
    rw [hsx.res]
    show (upd s.results x (some r) x).isSome
    rw [upd_same]; rfl
  refine ⟨?_, hx, ?_, ?_, ?_, ?_, hcore1.calm k1, k1.crashed, k2, k1.results⟩
  · intro t ht
    by_cases htx : t = x
    · rw [htx]; exact hx
    · by_cases haw' : t ∈ s.awaiters x
      · exact k4 t haw'
      · exact (hs t ht htx).frame (hm.trans k1.mono) ((hsame t haw' htx).trans (k3 t haw'))
  · intro t h1 h2
    exact (hsame t h1 h2).trans (k3 t h1)
  · intro k; exact (k1.chans k).1
  · intro k; exact ⟨(k1.chans k).2.1, (k1.chans k).2.2.1⟩
  · intro hch k; exact ChanOk.calm (s := { s with awaiters := upd s.awaiters x [], results := upd s.results x (some r) }) (hch k) k1

theorem exit_inv {s : State B} {x : Nat} {v : Payload} (h : Pre s x (.exit v)) {m : Option Payload} {s2 : State B}
    (hs2 : s2 = (({ s with mainResult := m } : State B).park x .done).complete x (.completed v)) :
    Inv s2 ∧ s2.crashed = s.crashed := by
  obtain ⟨sl, h1, h2, h3, h4⟩ := h.run.slot
  have hsl : ({ s with mainResult := m } : State B).tasks x = some sl := h1
  have hm0 : Mono s { s with mainResult := m } :=
    ⟨rfl, rfl, fun _ _ h => h, fun _ ch h => ⟨ch, h, rfl, id⟩, fun _ sl h => ⟨sl, h⟩⟩
  have hsame0 : ∀ t, Same s { s with mainResult := m } t := fun t => ⟨rfl, rfl, rfl, rfl, rfl⟩
  have hcore0 : Core ({ s with mainResult := m } : State B) := ⟨h.core.taskLt, h.core.chanLt, h.core.awDone, h.core.awTask, h.core.timers⟩
  have hcalm : Calm ({ s with mainResult := m } : State B) (({ s with mainResult := m } : State B).park x .done) :=
    modTask_calm hsl _
  have hp := park_some hsl .done
  have hlog : (({ s with mainResult := m } : State B).park x .done).log = s.log := by rw [hp]
  have hres : (({ s with mainResult := m } : State B).park x .done).results = s.results := by rw [hp]
  have hsame1 : ∀ t, t ≠ x → Same s (({ s with mainResult := m } : State B).park x .done) t := fun t ht =>
    (hsame0 t).trans (modTask_same hsl _ ht)
  have hreg : regOf (({ s with mainResult := m } : State B).park x .done) x = {} := by
    rw [hp]; exact h.run.reg
  have hslot : (({ s with mainResult := m } : State B).park x .done).tasks x = some { sl with state := .done } := by
    rw [hp]; exact upd_same _ _ _
  have hchan : ∀ k, (({ s with mainResult := m } : State B).park x .done).chan k = s.chan k := by
    intro k; rw [hp]; rfl
  have hcrash : (({ s with mainResult := m } : State B).park x .done).crashed = s.crashed := hcalm.crashed
  have hcore1 := hcore0.calm hcalm
  have hm1 := hm0.trans hcalm.mono
  clear hp hcalm hm0 hsame0 hcore0
  generalize ({ s with mainResult := m } : State B).park x .done = s1 at *
  subst hs2
  obtain ⟨c1, _, _, _, c5, c6, c7, c8, c9, c10⟩ := complete_ok (s := s1) (x := x) (r := .completed v)
    (P := fun _ => True) (fun t _ ht => (h.status t ht).frame hm1 (hsame1 t ht)) (fun _ _ => trivial)
    ⟨_, hslot, rfl⟩ hreg (by rw [hres]; exact h.run.res) hcore1
  refine ⟨⟨fun t => c1 t trivial, c6 (fun k => by rw [hchan]; exact h.chans k), ?_, c7⟩, c8.trans hcrash⟩
  intro k
  have hn : notAborted (s1.complete x (.completed v)) = notAborted s := by
    funext y
    simp only [notAborted, c10, hres]
    by_cases hy : y.1 = x
    · rw [hy, upd_same, h.run.res]; simp
    · rw [upd_ne _ _ hy]
  rw [hn, c9, hlog, (c5 k).1, (c5 k).2, hchan]
  exact h.ledger k

/-! ## New tasks and channels -/

theorem addTask_facts {s : State B} (hcore : Core s) (hn : Status s s.nextId) (b : B) (p : Nat) (main : Bool) :
    Mono s (s.addTask b p main) ∧ (∀ t, t ≠ s.nextId → Same s (s.addTask b p main) t) ∧
    Status (s.addTask b p main) s.nextId ∧ Core (s.addTask b p main) ∧ s.tasks s.nextId = none := by
  have hnone : s.tasks s.nextId = none := by
    cases h : s.tasks s.nextId with
    | none => rfl
    | some sl => exact absurd (hcore.taskLt s.nextId (by simp [h])) (Nat.lt_irrefl _)
  refine ⟨⟨rfl, rfl, fun _ _ h => h, fun _ ch h => ⟨ch, h, rfl, id⟩, ?_⟩, ?_, ?_, ?_, hnone⟩
  · intro t sl h
    have : t ≠ s.nextId := by rintro rfl; rw [hnone] at h; cases h
    exact ⟨sl, by rw [← h]; exact upd_ne _ _ this⟩
  · intro t ht
    refine ⟨upd_ne _ _ ht, ?_, rfl, rfl, rfl⟩
    simp [regOf, State.addTask, State.chan, List.count_append, List.count_singleton, Ne.symm ht]
  · cases hn with
    | absent ht hr hl he hres =>
      refine .ready _ (upd_same _ _ _) rfl ?_ rfl hres ?_
      · simp only [regOf, State.chan, State.addTask, Reg.mk.injEq] at hr ⊢
        obtain ⟨e1, e2, e3, e4, e5⟩ := hr
        refine ⟨?_, e2, e3, e4, e5⟩
        rw [List.count_append, e1]; simp
      · have : (s.addTask b p main).log = s.log := rfl
        unfold Resumable
        rw [this, hl]
        exact ⟨he, rfl⟩
    | ready sl ht => rw [hnone] at ht; cases ht
    | done sl ht => rw [hnone] at ht; cases ht
    | blocked sl st clk ht => rw [hnone] at ht; cases ht
  · refine ⟨?_, ?_, hcore.awDone, ?_, hcore.timers⟩
    · intro t ht
      show t < s.nextId + 1
      by_cases htn : t = s.nextId
      · omega
      · have e : (s.addTask b p main).tasks t = s.tasks t := upd_ne _ _ htn
        rw [e] at ht
        exact Nat.lt_succ_of_lt (hcore.taskLt t ht)
    · intro c hc
      exact Nat.lt_succ_of_lt (hcore.chanLt c hc)
    · intro u hu
      show (upd s.tasks s.nextId _ u).isSome
      by_cases htn : u = s.nextId
      · rw [htn, upd_same]; rfl
      · rw [upd_ne _ _ htn]; exact hcore.awTask u hu

theorem addTask_inv {s : State B} (h : Inv s) (b : B) (p : Nat) (main : Bool) : Inv (s.addTask b p main) := by
  obtain ⟨a1, a2, a3, a4, _⟩ := addTask_facts h.core (h.status s.nextId) b p main
  refine ⟨?_, h.chans, h.ledger, a4⟩
  intro t
  by_cases ht : t = s.nextId
  · rw [ht]; exact a3
  · exact (h.status t).frame a1 (a2 t ht)

theorem addChan_facts {s : State B} (hcore : Core s) (cap : Option Nat) :
    Mono s (s.addChan cap) ∧ (∀ t, Same s (s.addChan cap) t) ∧ Core (s.addChan cap) ∧
    (∀ k, ((s.addChan cap).chan k).queue = (s.chan k).queue ∧ ((s.addChan cap).chan k).senders = (s.chan k).senders) ∧
    ((∀ k, ChanOk (s.chan k)) → ∀ k, ChanOk ((s.addChan cap).chan k)) := by
  have hnone : s.chans s.nextId = none := by
    cases h : s.chans s.nextId with
    | none => rfl
    | some sl => exact absurd (hcore.chanLt s.nextId (by simp [h])) (Nat.lt_irrefl _)
  have hd : s.chan s.nextId = { cap := none } := by simp [State.chan, hnone]
  have hnew : (s.addChan cap).chan s.nextId = { cap := cap } := by simp [State.chan, State.addChan, upd]
  have hold : ∀ k, k ≠ s.nextId → (s.addChan cap).chan k = s.chan k := by
    intro k hk; simp [State.chan, State.addChan, upd, hk]
  refine ⟨⟨rfl, rfl, fun _ _ h => h, ?_, fun _ sl h => ⟨sl, h⟩⟩, ?_, ?_, ?_, ?_⟩
  · intro c ch h
    have : c ≠ s.nextId := by rintro rfl; rw [hnone] at h; cases h
    exact ⟨ch, by rw [← h]; exact upd_ne _ _ this, rfl, id⟩
  · intro t
    refine ⟨rfl, ?_, rfl, rfl, rfl⟩
    simp only [regOf, Reg.mk.injEq]
    refine ⟨rfl, ?_, ?_, rfl, rfl⟩ <;>
    · funext k
      by_cases hk : k = s.nextId
      · subst hk; rw [hnew, hd]
      · rw [hold k hk]
  · refine ⟨fun t ht => Nat.lt_succ_of_lt (hcore.taskLt t ht), ?_, hcore.awDone, hcore.awTask, hcore.timers⟩
    intro c hc
    show c < s.nextId + 1
    by_cases htn : c = s.nextId
    · omega
    · have e : (s.addChan cap).chans c = s.chans c := upd_ne _ _ htn
      rw [e] at hc
      exact Nat.lt_succ_of_lt (hcore.chanLt c hc)
  · intro k
    by_cases hk : k = s.nextId
    · subst hk; rw [hnew, hd]; exact ⟨rfl, rfl⟩
    · rw [hold k hk]; exact ⟨rfl, rfl⟩
  · intro hch k
    by_cases hk : k = s.nextId
    · subst hk; rw [hnew]
      exact ⟨fun n _ => Nat.zero_le _, fun hn => absurd rfl hn, fun hn => absurd rfl hn⟩
    · rw [hold k hk]; exact hch k

theorem addChan_inv {s : State B} (h : Inv s) (cap : Option Nat) : Inv (s.addChan cap) := by
  obtain ⟨a1, a2, a3, a4, a5⟩ := addChan_facts h.core cap
  exact ⟨fun t => (h.status t).frame a1 (a2 t), a5 h.chans, h.ledger.quiet rfl rfl a4, a3⟩

/-- Storing something for the running task before readying it. -/
theorem modTask_mid {s : State B} {x : Nat} {st : Step B} {clk : Nat} {evs : List (Ev B)} {ctx ctx' : Ctx}
    (h : Mid s x st clk evs ctx) (f : Slot B → Slot B) (hf1 : ∀ sl, (f sl).state = sl.state)
    (hf2 : ∀ sl, (f sl).selectArms = sl.selectArms) (hf3 : ∀ sl, sl.ctx = ctx → (f sl).ctx = ctx') :
    Mid (s.modTask x f) x st clk evs ctx' ∧ (s.modTask x f).crashed = s.crashed := by
  obtain ⟨sl, h1, h2, h3, h4⟩ := h.run.slot
  have hc := modTask_calm h1 f
  have hm := modTask_some h1 f
  refine ⟨⟨?_, ?_, fun k => (h.chans k).calm hc, ?_, h.core.calm hc⟩, hc.crashed⟩
  · intro t ht; exact (h.status t ht).frame hc.mono (modTask_same h1 f ht)
  · rw [hm]
    exact ⟨⟨f sl, upd_same _ _ _, (hf1 sl).trans h2, (hf2 sl).trans h3, hf3 sl h4⟩, h.run.reg, h.run.poll,
      h.run.since, h.run.res⟩
  · exact h.ledger.quiet (by rw [hm]) hc.results fun k => ⟨(hc.chans k).2.1, (hc.chans k).2.2.1⟩

theorem spawn_inv {s : State B} {x : Nat} {child : B} {p : Nat} (h : Pre s x (.spawn child)) {s2 : State B}
    (hs2 : s2 = ((s.addTask child p false).modTask x fun sl => { sl with resumeTask := some s.nextId }).markReady x
      .nothing) : Inv s2 ∧ s2.crashed = s.crashed := by
  obtain ⟨sl, h1, _⟩ := h.run.slot
  have hxn : x ≠ s.nextId := by
    have := h.core.taskLt x (by simp [h1]); omega
  obtain ⟨a1, a2, a3, a4, a5⟩ := addTask_facts h.core (h.status s.nextId (Ne.symm hxn)) child p false
  have hmid : Mid (s.addTask child p false) x (.spawn child) s.clock [] {} := by
    refine ⟨?_, h.run.frame (a2 x hxn), h.chans, h.ledger, a4⟩
    intro t ht
    by_cases htn : t = s.nextId
    · rw [htn]; exact a3
    · exact (h.status t ht).frame a1 (a2 t htn)
  obtain ⟨m1, m2⟩ := modTask_mid (ctx' := { spawned := some s.nextId }) hmid
    (fun sl => { sl with resumeTask := some s.nextId }) (fun _ => rfl) (fun _ => rfl) (by
      intro sl hsl
      simp only [Slot.ctx, Ctx.mk.injEq] at hsl ⊢
      exact ⟨hsl.1, hsl.2.1, hsl.2.2.1, trivial⟩)
  have htask : ∃ sl, ((s.addTask child p false).modTask x fun sl => { sl with resumeTask := some s.nextId }).tasks
      s.nextId = some sl := by
    obtain ⟨sl', g1, _⟩ := hmid.run.slot
    rw [modTask_some g1]
    exact ⟨_, (upd_ne _ _ (Ne.symm hxn)).trans (upd_same _ _ _)⟩
  obtain ⟨sln, hsln⟩ := htask
  subst hs2
  obtain ⟨f1, f2⟩ := m1.finish (v := .nothing) ⟨s.nextId, sln, rfl, rfl, hsln⟩
  exact ⟨f1, f2.trans m2⟩

theorem newChan_inv {s : State B} {x : Nat} {cap : Option Nat} (h : Pre s x (.newChan cap)) {s2 : State B}
    (hs2 : s2 = ((s.addChan (some (cap.getD s.cfg.defaultCap))).modTask x fun sl =>
      { sl with resumeChan := some s.nextId }).markReady x .nothing) : Inv s2 ∧ s2.crashed = s.crashed := by
  obtain ⟨a1, a2, a3, a4, a5⟩ := addChan_facts h.core (some (cap.getD s.cfg.defaultCap))
  have hmid : Mid (s.addChan (some (cap.getD s.cfg.defaultCap))) x (.newChan cap) s.clock [] {} :=
    ⟨fun t ht => (h.status t ht).frame a1 (a2 t), h.run.frame (a2 x), a5 h.chans, h.ledger.quiet rfl rfl a4, a3⟩
  obtain ⟨m1, m2⟩ := modTask_mid (ctx' := { newChan := some s.nextId }) hmid
    (fun sl => { sl with resumeChan := some s.nextId }) (fun _ => rfl) (fun _ => rfl) (by
      intro sl hsl
      simp only [Slot.ctx, Ctx.mk.injEq] at hsl ⊢
      exact ⟨hsl.1, hsl.2.1, trivial, hsl.2.2.2⟩)
  subst hs2
  obtain ⟨sl', g1, _⟩ := hmid.run.slot
  have e := modTask_some g1 (fun sl => { sl with resumeChan := some s.nextId })
  obtain ⟨f1, f2⟩ := m1.finish (v := .nothing) ⟨s.nextId, { cap := some (cap.getD s.cfg.defaultCap) }, rfl, rfl,
    by rw [e]; exact upd_same _ _ _, by rw [e]; rfl⟩
  exact ⟨f1, f2.trans m2⟩

theorem yield_inv {s : State B} {x : Nat} (h : Pre s x .yield) :
    Inv (s.markReady x .nothing) ∧ (s.markReady x .nothing).crashed = s.crashed :=
  h.mid.finish (v := .nothing) ⟨rfl, rfl⟩

end Verif.Sched
