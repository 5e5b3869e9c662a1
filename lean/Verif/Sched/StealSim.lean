import Verif.Sched.Steal
import Verif.Sched.Fair
/-!
# The coordinator's scheduler follows the cooperative one
-/

namespace Verif.Sched
variable {B D : Type}

/-- A slot and its metadata: everything but the body and the priority. -/
structure SlotSim (Q : B → Prop) (a : Slot B) (b : Slot D) : Prop where
  state : b.state = a.state
  arms : b.selectArms = a.selectArms
  main : b.isMain = a.isMain
  ctx : b.ctx = a.ctx
  body : Q a.body

/-- A task that has been dispatched to a worker but whose step has not been applied. -/
structure HeldSim (a : Slot B) (b : Slot D) : Prop where
  state : b.state = a.state
  arms : b.selectArms = a.selectArms
  main : b.isMain = a.isMain
  ctx : b.ctx = {}

/-- Ids of held tasks. -/
abbrev ids (held : List (Nat × Slot B)) : List Nat := held.map (·.1)

/-- `w` is `s` without bodies, with the tasks in `held` taken off the front of the ready list. -/
structure Sim (Q : Nat → B → Prop) (held : List (Nat × Slot B)) (s : State B) (w : State D) : Prop where
  cfg : w.cfg = s.cfg
  chooser : w.chooser = s.chooser
  ready : s.ready = ids held ++ w.ready
  chans : w.chans = s.chans
  timers : w.timers = s.timers
  clock : w.clock = s.clock
  nextId : w.nextId = s.nextId
  mainResult : w.mainResult = s.mainResult
  results : w.results = s.results
  awaiters : w.awaiters = s.awaiters
  crashed : w.crashed = s.crashed
  absent : ∀ t, w.tasks t = none ↔ s.tasks t = none
  slot : ∀ t a b, t ∉ ids held → s.tasks t = some a → w.tasks t = some b → SlotSim (Q t) a b
  held : ∀ x ∈ held, s.tasks x.1 = some x.2 ∧ ∀ b, w.tasks x.1 = some b → HeldSim x.2 b

variable {Q : Nat → B → Prop} {H : List (Nat × Slot B)} {s : State B} {w : State D}

theorem Sim.chan (h : Sim Q H s w) (c : Nat) : w.chan c = s.chan c := by simp only [State.chan, h.chans]

/-- Both states have the slot, or neither. -/
theorem Sim.both (h : Sim Q H s w) (t : Nat) :
    (s.tasks t = none ∧ w.tasks t = none) ∨ ∃ a b, s.tasks t = some a ∧ w.tasks t = some b := by
  cases hs : s.tasks t with
  | none => exact Or.inl ⟨rfl, (h.absent t).mpr hs⟩
  | some a =>
    cases hw : w.tasks t with
    | none => rw [(h.absent t).mp hw] at hs; cases hs
    | some b => exact Or.inr ⟨a, b, rfl, rfl⟩

/-- State, arms and role of every task agree. -/
theorem Sim.meta (h : Sim Q H s w) {t : Nat} {a : Slot B} {b : Slot D} (ha : s.tasks t = some a) (hb : w.tasks t = some b) :
    b.state = a.state ∧ b.selectArms = a.selectArms ∧ b.isMain = a.isMain := by
  by_cases ht : t ∈ ids H
  · obtain ⟨x, hx, rfl⟩ := List.mem_map.mp ht
    obtain ⟨h1, h2⟩ := h.held x hx
    rw [h1] at ha; cases ha
    have := h2 b hb
    exact ⟨this.state, this.arms, this.main⟩
  · have := h.slot t a b ht ha hb
    exact ⟨this.state, this.arms, this.main⟩

theorem Sim.stateOf (h : Sim Q H s w) (t : Nat) : w.stateOf t = s.stateOf t := by
  rcases h.both t with ⟨h1, h2⟩ | ⟨a, b, h1, h2⟩
  · simp [State.stateOf, h1, h2]
  · simp [State.stateOf, h1, h2, (h.meta h1 h2).1]

theorem Sim.armsOf (h : Sim Q H s w) (t : Nat) : w.armsOf t = s.armsOf t := by
  rcases h.both t with ⟨h1, h2⟩ | ⟨a, b, h1, h2⟩
  · simp [State.armsOf, h1, h2]
  · simp [State.armsOf, h1, h2, (h.meta h1 h2).2.1]

theorem Sim.isMain (h : Sim Q H s w) (t : Nat) : w.isMain t = s.isMain t := by
  rcases h.both t with ⟨h1, h2⟩ | ⟨a, b, h1, h2⟩
  · simp [State.isMain, h1, h2]
  · simp [State.isMain, h1, h2, (h.meta h1 h2).2.2]

theorem Sim.crash (h : Sim Q H s w) : Sim Q H { s with crashed := true } { w with crashed := true } :=
  ⟨h.cfg, h.chooser, h.ready, h.chans, h.timers, h.clock, h.nextId, h.mainResult, h.results, h.awaiters, rfl, h.absent,
    h.slot, h.held⟩

theorem Sim.note (h : Sim Q H s w) (e : Ev B) (e' : Ev D) : Sim Q H (s.note e) (w.note e') :=
  ⟨h.cfg, h.chooser, h.ready, h.chans, h.timers, h.clock, h.nextId, h.mainResult, h.results, h.awaiters, h.crashed, h.absent,
    h.slot, h.held⟩

theorem Sim.push (h : Sim Q H s w) (t : Nat) :
    Sim Q H { s with ready := s.ready ++ [t] } { w with ready := w.ready ++ [t] } :=
  ⟨h.cfg, h.chooser, by simp [h.ready], h.chans, h.timers, h.clock, h.nextId, h.mainResult, h.results, h.awaiters,
    h.crashed, h.absent, h.slot, h.held⟩

theorem Sim.modTask (h : Sim Q H s w) {t : Nat} (ht : t ∉ ids H) {f : Slot B → Slot B} {g : Slot D → Slot D}
    (hfg : ∀ a b, SlotSim (Q t) a b → SlotSim (Q t) (f a) (g b)) : Sim Q H (s.modTask t f) (w.modTask t g) := by
  rcases h.both t with ⟨h1, h2⟩ | ⟨a, b, h1, h2⟩
  · rw [show s.modTask t f = { s with crashed := true } by simp [State.modTask, h1],
      show w.modTask t g = { w with crashed := true } by simp [State.modTask, h2]]
    exact h.crash
  · rw [show s.modTask t f = { s with tasks := upd s.tasks t (some (f a)) } by simp [State.modTask, h1],
      show w.modTask t g = { w with tasks := upd w.tasks t (some (g b)) } by simp [State.modTask, h2]]
    refine ⟨h.cfg, h.chooser, h.ready, h.chans, h.timers, h.clock, h.nextId, h.mainResult, h.results, h.awaiters,
      h.crashed, ?_, ?_, ?_⟩
    · intro u
      by_cases hu : u = t
      · subst hu; simp [upd]
      · simp only [upd, hu, if_false]; exact h.absent u
    · intro u a' b' hu ha' hb'
      by_cases hut : u = t
      · subst hut
        simp only [upd, if_true, Option.some.injEq] at ha' hb'
        subst ha' hb'
        exact hfg a b (h.slot u a b hu h1 h2)
      · simp only [upd, hut, if_false] at ha' hb'
        exact h.slot u a' b' hu ha' hb'
    · intro x hx
      have hne : x.1 ≠ t := by rintro rfl; exact ht (List.mem_map.mpr ⟨x, hx, rfl⟩)
      simp only [upd, hne, if_false]
      exact h.held x hx

theorem Sim.modChan (h : Sim Q H s w) (c : Nat) (f : Chan → Chan) : Sim Q H (s.modChan c f) (w.modChan c f) := by
  have hc : w.chans c = s.chans c := by rw [h.chans]
  cases e : s.chans c with
  | none =>
    simp only [State.modChan, e, hc]
    exact h.crash
  | some ch =>
    simp only [State.modChan, e, hc]
    exact ⟨h.cfg, h.chooser, h.ready, by simp only [h.chans], h.timers, h.clock, h.nextId, h.mainResult, h.results, h.awaiters,
      h.crashed, h.absent, h.slot, h.held⟩

theorem Sim.markReady (h : Sim Q H s w) {t : Nat} (ht : t ∉ ids H) (v : Payload) :
    Sim Q H (s.markReady t v) (w.markReady t v) := by
  refine (h.push t).modTask ht ?_
  intro a b k
  have := k.ctx
  simp only [Slot.ctx, Ctx.mk.injEq] at this
  exact ⟨rfl, k.arms, k.main, by simp [Slot.ctx, this], k.body⟩

theorem Sim.park (h : Sim Q H s w) {t : Nat} (ht : t ∉ ids H) (st : TState) : Sim Q H (s.park t st) (w.park t st) :=
  h.modTask ht fun _ _ k => ⟨rfl, k.arms, k.main, k.ctx, k.body⟩

theorem Sim.clearArms (h : Sim Q H s w) {t : Nat} (ht : t ∉ ids H) : Sim Q H (s.clearArms t) (w.clearArms t) :=
  h.modTask ht fun _ _ k => ⟨k.state, rfl, k.main, k.ctx, k.body⟩

theorem Sim.win (h : Sim Q H s w) {t : Nat} (ht : t ∉ ids H) (i : Nat) (v : Payload) : Sim Q H (s.win t i v) (w.win t i v) := by
  refine (h.push t).modTask ht ?_
  intro a b k
  have := k.ctx
  simp only [Slot.ctx, Ctx.mk.injEq] at this
  exact ⟨rfl, k.arms, k.main, by simp [Slot.ctx, this], k.body⟩

theorem Sim.cancel (h : Sim Q H s w) (r : Nat) (keep : Option Nat) : Sim Q H (s.cancel r keep) (w.cancel r keep) :=
  ⟨h.cfg, h.chooser, h.ready, by simp only [State.cancel, h.chans], by simp only [State.cancel, h.timers], h.clock,
    h.nextId, h.mainResult, h.results, h.awaiters, h.crashed, h.absent, h.slot, h.held⟩

theorem Sim.decide (h : Sim Q H s w) (k : Kind) (n : Nat) :
    (w.decide k n).1 = (s.decide k n).1 ∧ Sim Q H (s.decide k n).2 (w.decide k n).2 := by
  cases e : s.chooser.decide k n with
  | none =>
    simp only [State.decide, h.chooser, e]
    exact ⟨trivial, by simpa only [h.chooser] using h.crash⟩
  | some x =>
    simp only [State.decide, h.chooser, e]
    exact ⟨trivial, h.cfg, rfl, h.ready, h.chans, h.timers, h.clock, h.nextId, h.mainResult, h.results, h.awaiters,
      h.crashed, h.absent, h.slot, h.held⟩

theorem Sim.deliver (h : Sim Q H s w) {r : Nat} (hr : r ∉ ids H) (c : Nat) (v : Payload) :
    Sim Q H (s.deliver r c v) (w.deliver r c v) := by
  unfold State.deliver
  rw [h.armsOf]
  split
  · split
    · exact h.crash
    · exact (((h.clearArms hr).win hr _ _).cancel _ _).note _ _
  · exact (h.markReady hr _).note _ _

/-- No held task is registered with a channel or awaits a task. -/
structure Clear (H : List Nat) (s : State B) : Prop where
  recv : ∀ u ∈ H, ∀ c, u ∉ (s.chan c).receivers
  send : ∀ u ∈ H, ∀ c p, (u, p) ∉ (s.chan c).senders
  await : ∀ u ∈ H, ∀ k, u ∉ s.awaiters k

theorem Sim.refill (h : Sim Q H s w) {c : Nat} (hs : ∀ u ∈ ids H, ∀ p, (u, p) ∉ (s.chan c).senders) :
    Sim Q H (s.refill c) (w.refill c) := by
  unfold State.refill
  rw [h.chan]
  split
  · split
    · exact h
    · next sid p rest e =>
      have : sid ∉ ids H := fun hm => hs sid hm p (by rw [e]; simp)
      exact ((h.modChan c _).note _ _).markReady this _
  · exact h

theorem Sim.doSend (h : Sim Q H s w) (k : Clear (ids H) s) {t : Nat} (ht : t ∉ ids H) (c : Nat) (p : Payload) :
    Sim Q H (s.doSend t c p) (w.doSend t c p) := by
  unfold State.doSend
  rw [h.chan]
  split
  · next r rs e =>
    have hr : r ∉ ids H := fun hm => k.recv r hm c (by rw [e]; simp)
    exact ((((h.modChan c _).note _ _).note _ _).deliver hr _ _).markReady ht _
  · split
    · exact (((h.modChan c _).note _ _).note _ _).markReady ht _
    · exact ((h.modChan c _).note _ _).park ht _

theorem Sim.doTrySend (h : Sim Q H s w) (k : Clear (ids H) s) {t : Nat} (ht : t ∉ ids H) (c : Nat) (p : Payload) :
    Sim Q H (s.doTrySend t c p) (w.doTrySend t c p) := by
  unfold State.doTrySend
  rw [h.chan]
  split
  · next r rs e =>
    have hr : r ∉ ids H := fun hm => k.recv r hm c (by rw [e]; simp)
    exact ((((h.modChan c _).note _ _).note _ _).deliver hr _ _).markReady ht _
  · split
    · exact (((h.modChan c _).note _ _).note _ _).markReady ht _
    · exact h.markReady ht _

theorem chan_queue_senders {s : State B} (c : Nat) (q : List Payload) (x : Nat × Payload)
    (h : x ∈ ((s.modChan c fun ch => { ch with queue := q }).chan c).senders) : x ∈ (s.chan c).senders := by
  unfold State.modChan at h
  split at h
  · exact h
  · next ch e => simpa [State.chan, upd, e] using h

theorem chan_markReady (s : State B) (t : Nat) (v : Payload) (c : Nat) : (s.markReady t v).chan c = s.chan c := by
  unfold State.markReady State.modTask
  split <;> rfl

theorem Sim.takeFor (h : Sim Q H s w) (k : Clear (ids H) s) {t : Nat} (ht : t ∉ ids H) (c : Nat) :
    (s.takeFor t c = none ∧ w.takeFor t c = none) ∨
    ∃ s' w', s.takeFor t c = some s' ∧ w.takeFor t c = some w' ∧ Sim Q H s' w' := by
  unfold State.takeFor
  rw [h.chan]
  split
  · next v q e =>
    refine Or.inr ⟨_, _, rfl, rfl, (((h.modChan c _).note _ _).markReady ht _).refill ?_⟩
    intro u hu p hp
    rw [chan_markReady] at hp
    exact k.send u hu c p (chan_queue_senders c q (u, p) hp)
  · split
    · next sid p rest e =>
      have : sid ∉ ids H := fun hm => k.send sid hm c p (by rw [e]; simp)
      exact Or.inr ⟨_, _, rfl, rfl, ((((h.modChan c _).note _ _).note _ _).markReady ht _).markReady this _⟩
    · exact Or.inl ⟨rfl, rfl⟩

theorem Sim.doRecv (h : Sim Q H s w) (k : Clear (ids H) s) {t : Nat} (ht : t ∉ ids H) (c : Nat) :
    Sim Q H (s.doRecv t c) (w.doRecv t c) := by
  unfold State.doRecv
  rcases h.takeFor k ht c with ⟨h1, h2⟩ | ⟨s', w', h1, h2, h3⟩
  · rw [h1, h2]
    simp only [h.chan]
    split
    · exact h.markReady ht _
    · exact (h.modChan c _).park ht _
  · rw [h1, h2]; exact h3

theorem Sim.doTryRecv (h : Sim Q H s w) (k : Clear (ids H) s) {t : Nat} (ht : t ∉ ids H) (c : Nat) :
    Sim Q H (s.doTryRecv t c) (w.doTryRecv t c) := by
  unfold State.doTryRecv
  rcases h.takeFor k ht c with ⟨h1, h2⟩ | ⟨s', w', h1, h2, h3⟩
  · rw [h1, h2]; exact h.markReady ht _
  · rw [h1, h2]; exact h3

theorem Sim.takeOne (h : Sim Q H s w) (k : Clear (ids H) s) (t c : Nat) :
    (w.takeOne t c).1 = (s.takeOne t c).1 ∧ Sim Q H (s.takeOne t c).2 (w.takeOne t c).2 := by
  unfold State.takeOne
  rw [h.chan]
  split
  · next v q e =>
    refine ⟨rfl, ((h.modChan c _).note _ _).refill ?_⟩
    intro u hu p hp
    exact k.send u hu c p (chan_queue_senders c q (u, p) hp)
  · split
    · next sid p rest e =>
      have : sid ∉ ids H := fun hm => k.send sid hm c p (by rw [e]; simp)
      exact ⟨rfl, (((h.modChan c _).note _ _).note _ _).markReady this _⟩
    · exact ⟨rfl, h⟩

theorem Sim.readyArms (h : Sim Q H s w) : ∀ (arms : List Arm) (i : Nat), w.readyArms i arms = s.readyArms i arms := by
  intro arms
  induction arms with
  | nil => intro i; rfl
  | cons a as ih =>
    intro i
    cases a with
    | recv c => simp only [State.readyArms, h.chan, ih]
    | timeout d => simp only [State.readyArms, ih]

theorem Sim.addTimer (h : Sim Q H s w) (e : Timer) :
    Sim Q H { s with timers := s.timers ++ [e] } { w with timers := w.timers ++ [e] } :=
  ⟨h.cfg, h.chooser, h.ready, h.chans, by rw [h.timers], h.clock, h.nextId, h.mainResult, h.results, h.awaiters,
    h.crashed, h.absent, h.slot, h.held⟩

theorem Sim.registerAll (t : Nat) : ∀ (arms : List Arm) (i : Nat) {s : State B} {w : State D}, Sim Q H s w →
    Sim Q H (s.registerAll t i arms) (w.registerAll t i arms) := by
  intro arms
  induction arms with
  | nil => intro i s w h; exact h
  | cons a as ih =>
    intro i s w h
    refine ih (i + 1) ?_
    cases a with
    | recv c => exact h.modChan c _
    | timeout d =>
      by_cases hc : s.clock + d < 2 ^ 64
      · have hc' : w.clock + d < 2 ^ 64 := by rw [h.clock]; exact hc
        simp only [State.register, if_pos hc, if_pos hc', h.clock]
        have := h.addTimer ⟨s.clock + d, t, some i⟩
        simpa only [h.clock] using this
      · have hc' : ¬ w.clock + d < 2 ^ 64 := by rw [h.clock]; exact hc
        simp only [State.register, if_neg hc, if_neg hc']
        exact h.crash

theorem Sim.pickArm (h : Sim Q H s w) (r : List Nat) :
    (w.pickArm r).1 = (s.pickArm r).1 ∧ Sim Q H (s.pickArm r).2 (w.pickArm r).2 := by
  unfold State.pickArm
  split
  · exact ⟨rfl, h⟩
  · have := h.decide .selectWinner r.length
    exact ⟨by rw [this.1], this.2⟩

theorem pickArm_same (s : State B) (r : List Nat) : (s.pickArm r).2.chans = s.chans ∧ (s.pickArm r).2.awaiters = s.awaiters := by
  unfold State.pickArm State.decide
  split
  · exact ⟨rfl, rfl⟩
  · split <;> exact ⟨rfl, rfl⟩

theorem Clear.congr {l : List Nat} {s s' : State B} (h : Clear l s) (h1 : s'.chans = s.chans) (h2 : s'.awaiters = s.awaiters) :
    Clear l s' := by
  have hc : ∀ c, s'.chan c = s.chan c := fun c => by simp only [State.chan, h1]
  exact ⟨fun u hu c => by rw [hc]; exact h.recv u hu c, fun u hu c p => by rw [hc]; exact h.send u hu c p,
    fun u hu k => by rw [h2]; exact h.await u hu k⟩

theorem Sim.winNow (h : Sim Q H s w) (k : Clear (ids H) s) {t : Nat} (ht : t ∉ ids H) (arms : List Arm) (i : Nat) :
    Sim Q H (s.winNow t arms i) (w.winNow t arms i) := by
  unfold State.winNow
  split
  · next c e =>
    have := h.takeOne k t c
    rw [this.1]
    exact this.2.win ht _ _
  · exact h.crash

theorem Sim.doSelect (h : Sim Q H s w) (k : Clear (ids H) s) {t : Nat} (ht : t ∉ ids H) (arms : List Arm) :
    Sim Q H (s.doSelect t arms) (w.doSelect t arms) := by
  have hu : w.unknownArm = s.unknownArm := by
    funext a
    cases a with
    | recv c => simp only [State.unknownArm, h.chans]
    | timeout d => rfl
  unfold State.doSelect
  rw [hu, h.readyArms]
  split
  · exact h.crash
  · split
    · exact (Sim.registerAll t arms 0 h).modTask ht fun _ _ k => ⟨rfl, rfl, k.main, k.ctx, k.body⟩
    · next i is e =>
      have hp := h.pickArm (i :: is)
      rw [hp.1]
      split
      · exact hp.2.crash
      · exact hp.2.winNow (k.congr (pickArm_same _ _).1 (pickArm_same _ _).2) ht arms _

theorem Sim.wakeAll (p : Payload) : ∀ (ws : List Nat) {s : State B} {w : State D}, (∀ u ∈ ids H, u ∉ ws) → Sim Q H s w →
    Sim Q H (s.wakeAll p ws) (w.wakeAll p ws) := by
  intro ws
  induction ws with
  | nil => intro s w _ h; exact h
  | cons x xs ih =>
    intro s w hx h
    exact ih (fun u hu hm => hx u hu (List.mem_cons_of_mem _ hm)) (h.markReady (fun hm => hx x hm (by simp)) p)

theorem Sim.complete (h : Sim Q H s w) (t : Nat) (r : Result) (k : ∀ u ∈ ids H, u ∉ s.awaiters t) :
    Sim Q H (s.complete t r) (w.complete t r) := by
  unfold State.complete
  rw [h.awaiters]
  refine Sim.wakeAll _ _ k ?_
  exact ⟨h.cfg, h.chooser, h.ready, h.chans, h.timers, h.clock, h.nextId, h.mainResult, by simp only [h.results],
    rfl, h.crashed, h.absent, h.slot, h.held⟩

theorem Sim.doAwait (h : Sim Q H s w) {t : Nat} (ht : t ∉ ids H) (u : Nat) : Sim Q H (s.doAwait t u) (w.doAwait t u) := by
  have hr : w.results u = s.results u := by rw [h.results]
  cases e : s.results u with
  | some r =>
    simp only [State.doAwait, e, hr]
    exact h.markReady ht _
  | none =>
    rcases h.both u with ⟨h1, h2⟩ | ⟨a, b, h1, h2⟩
    · simp only [State.doAwait, e, hr, h1, h2]
      exact (h.note _ _).markReady ht _
    · simp only [State.doAwait, e, hr, h1, h2]
      refine Sim.park ?_ ht _
      exact ⟨h.cfg, h.chooser, h.ready, h.chans, h.timers, h.clock, h.nextId, h.mainResult, h.results,
        by simp only [h.awaiters], h.crashed, h.absent, h.slot, h.held⟩

theorem Sim.purge (h : Sim Q H s w) {u : Nat} (hu : u ∉ ids H) : Sim Q H (s.purge u) (w.purge u) := by
  refine ⟨h.cfg, h.chooser, ?_, by simp only [State.purge, h.chans], by simp only [State.purge, h.timers], h.clock,
    h.nextId, h.mainResult, h.results, by simp only [State.purge, h.awaiters], h.crashed, h.absent, h.slot, h.held⟩
  simp only [State.purge, h.ready, List.filter_append]
  congr 1
  rw [List.filter_eq_self]
  intro x hx
  simp only [decide_eq_true_eq]
  rintro rfl
  exact hu hx

theorem Sim.doAbort (h : Sim Q H s w) (k : Clear (ids H) s) {u : Nat} (hu : u ∉ ids H) : Sim Q H (s.doAbort u) (w.doAbort u) := by
  unfold State.doAbort
  rw [h.results, h.stateOf]
  split
  · exact h
  · split
    · exact h
    · exact h
    · refine ((h.purge hu).park hu _).complete _ _ ?_
      intro v hv hm
      have : (State.park (s.purge u) u .done).awaiters = (s.purge u).awaiters := by
        unfold State.park State.modTask
        split <;> rfl
      rw [this] at hm
      exact k.await v hv u (List.mem_filter.mp hm).1

theorem Sim.wakeClosed (h : Sim Q H s w) {r : Nat} (hr : r ∉ ids H) (c : Nat) : Sim Q H (s.wakeClosed r c) (w.wakeClosed r c) := by
  unfold State.wakeClosed
  rw [h.armsOf]
  split
  · exact ((h.clearArms hr).win hr _ _).cancel _ _
  · exact h.markReady hr _

theorem Sim.wakeClosedAll (c : Nat) : ∀ (rs : List Nat) {s : State B} {w : State D}, (∀ u ∈ ids H, u ∉ rs) → Sim Q H s w →
    Sim Q H (s.wakeClosedAll c rs) (w.wakeClosedAll c rs) := by
  intro rs
  induction rs with
  | nil => intro s w _ h; exact h
  | cons x xs ih =>
    intro s w hx h
    exact ih (fun u hu hm => hx u hu (List.mem_cons_of_mem _ hm)) (h.wakeClosed (fun hm => hx x hm (by simp)) c)

theorem Sim.doClose (h : Sim Q H s w) (k : Clear (ids H) s) (c : Nat) : Sim Q H (s.doClose c) (w.doClose c) := by
  unfold State.doClose
  rw [h.chan]
  exact Sim.wakeClosedAll c _ (fun u hu => k.recv u hu c) (h.modChan c _)

theorem Sim.addChan (h : Sim Q H s w) (cap : Option Nat) : Sim Q H (s.addChan cap) (w.addChan cap) :=
  ⟨h.cfg, h.chooser, h.ready, by simp only [State.addChan, h.chans, h.nextId], h.timers, h.clock,
    by simp only [State.addChan, h.nextId], h.mainResult, h.results, h.awaiters, h.crashed, h.absent, h.slot, h.held⟩

theorem Sim.addTask (h : Sim Q H s w) (b : B) (d : D) (p p' : Nat) (m : Bool) (hq : Q s.nextId b) (hn : s.nextId ∉ ids H) :
    Sim Q H (s.addTask b p m) (w.addTask d p' m) := by
  refine ⟨h.cfg, h.chooser, by simp [State.addTask, h.ready, h.nextId], h.chans, h.timers, h.clock,
    by simp only [State.addTask, h.nextId], h.mainResult, h.results, h.awaiters, h.crashed, ?_, ?_, ?_⟩
  · intro t
    simp only [State.addTask, h.nextId]
    by_cases ht : t = s.nextId
    · simp [upd, ht]
    · simp only [upd, ht, if_false]; exact h.absent t
  · intro t a b' ht ha hb
    simp only [State.addTask, h.nextId] at ha hb
    by_cases e : t = s.nextId
    · simp only [upd, e, if_true, Option.some.injEq] at ha hb
      subst ha hb
      exact ⟨rfl, rfl, rfl, rfl, by rw [e]; exact hq⟩
    · simp only [upd, e, if_false] at ha hb
      exact h.slot t a b' ht ha hb
  · intro x hx
    have hne : x.1 ≠ s.nextId := by intro e; exact hn (List.mem_map.mpr ⟨x, hx, e⟩)
    simp only [State.addTask, h.nextId, upd, hne, if_false]
    exact h.held x hx

/-- The child a step spawns, if any, satisfies `Q`. -/
def ChildOk (Q : Nat → B → Prop) (n : Nat) : Step B → Prop
  | .spawn b => Q n b
  | _ => True

/-- Applying a step keeps the two schedulers in step. -/
theorem Sim.process (h : Sim Q H s w) (k : Clear (ids H) s) {t : Nat} (ht : t ∉ ids H) (prioOf : B → Nat) (prioOf' : D → Nat)
    (build : D → B) (st : Step D) (hn : s.nextId ∉ ids H) (hch : ChildOk Q s.nextId (st.map build))
    (hab : ∀ u, st = .abort u → u ∉ ids H) :
    Sim Q H (s.process prioOf t (st.map build)) (w.process prioOf' t st) := by
  cases st with
  | yield => exact h.markReady ht _
  | recv c => exact h.doRecv k ht c
  | send c p => exact h.doSend k ht c p
  | trySend c p => exact h.doTrySend k ht c p
  | tryRecv c => exact h.doTryRecv k ht c
  | select arms => exact h.doSelect k ht arms
  | sleep d =>
    by_cases hc : s.clock + d < 2 ^ 64
    · have hc' : w.clock + d < 2 ^ 64 := by rw [h.clock]; exact hc
      simp only [State.process, Step.map, if_pos hc, if_pos hc']
      have := (h.addTimer ⟨s.clock + d, t, none⟩).park ht .blockedTimer
      simpa only [h.clock] using this
    · have hc' : ¬ w.clock + d < 2 ^ 64 := by rw [h.clock]; exact hc
      simp only [State.process, Step.map, if_neg hc, if_neg hc']
      exact h.crash
  | newChan cap =>
    simp only [State.process, Step.map, h.cfg, h.nextId]
    refine Sim.markReady (Sim.modTask (h.addChan _) ht ?_) ht _
    intro a b q
    have := q.ctx
    simp only [Slot.ctx, Ctx.mk.injEq] at this
    exact ⟨q.state, q.arms, q.main, by simp [Slot.ctx, this], q.body⟩
  | spawn d =>
    simp only [State.process, Step.map, h.nextId]
    refine Sim.markReady (Sim.modTask (h.addTask _ _ _ _ _ hch hn) ht ?_) ht _
    intro a b q
    have := q.ctx
    simp only [Slot.ctx, Ctx.mk.injEq] at this
    exact ⟨q.state, q.arms, q.main, by simp [Slot.ctx, this], q.body⟩
  | await u => exact h.doAwait ht u
  | abort u => exact (h.doAbort k (hab u rfl)).markReady ht _
  | close c => exact (h.doClose k c).markReady ht _
  | ioPending => exact h.park ht _
  | exit v =>
    simp only [State.process, Step.map, h.isMain, h.mainResult]
    have h1 : Sim Q H { s with mainResult := if s.isMain t then some v else s.mainResult }
        { w with mainResult := if s.isMain t then some v else s.mainResult } :=
      ⟨h.cfg, h.chooser, h.ready, h.chans, h.timers, h.clock, h.nextId, rfl, h.results, h.awaiters, h.crashed, h.absent,
        h.slot, h.held⟩
    refine (h1.park ht _).complete _ _ ?_
    intro u hu hm
    refine k.await u hu t ?_
    have : (State.park { s with mainResult := if s.isMain t then some v else s.mainResult } t .done).awaiters = s.awaiters := by
      unfold State.park State.modTask
      split <;> rfl
    rw [this] at hm
    exact hm

/-! ## Timers (no task is held then) -/

theorem Sim.fireTimer (h : Sim Q [] s w) (t : Nat) (arm : Option Nat) : Sim Q [] (s.fireTimer t arm) (w.fireTimer t arm) := by
  have ht : t ∉ ids ([] : List (Nat × Slot B)) := by simp
  unfold State.fireTimer
  rw [h.stateOf, h.armsOf]
  split
  · split
    · split
      · exact ((h.clearArms ht).win ht _ _).cancel _ _
      · exact h.win ht _ _
    · exact h.markReady ht _
  · exact h

theorem Sim.fireAll : ∀ (es : List Timer) {s : State B} {w : State D}, Sim Q [] s w → Sim Q [] (s.fireAll es) (w.fireAll es) := by
  intro es
  induction es with
  | nil => intro s w h; exact h
  | cons e es ih => intro s w h; exact ih (h.fireTimer _ _)

theorem Sim.drawOrder : ∀ (n : Nat) (pool : List Timer) {s : State B} {w : State D}, Sim Q [] s w →
    (State.drawOrder n pool w).1 = (State.drawOrder n pool s).1 ∧
      Sim Q [] (State.drawOrder n pool s).2 (State.drawOrder n pool w).2 := by
  intro n
  induction n with
  | zero => intro pool s w h; exact ⟨rfl, h⟩
  | succ n ih =>
    intro pool s w h
    have hd := h.decide .timerTieBreak pool.length
    simp only [State.drawOrder, hd.1]
    split
    · exact ⟨rfl, hd.2.crash⟩
    · have := ih (pool.eraseIdx (s.decide .timerTieBreak pool.length).1) hd.2
      exact ⟨by rw [this.1], this.2⟩

theorem Sim.advance (h : Sim Q [] s w) : Sim Q [] s.advanceTimers w.advanceTimers := by
  unfold State.advanceTimers
  rw [h.timers]
  split
  · exact h
  · next m _ =>
    have h1 : Sim Q [] ({ s with clock := m, timers := s.timers.filter (·.fireAt ≠ m) } : State B)
        { w with clock := m, timers := s.timers.filter (·.fireAt ≠ m) } :=
      ⟨h.cfg, h.chooser, h.ready, h.chans, rfl, rfl, h.nextId, h.mainResult, h.results, h.awaiters, h.crashed,
        h.absent, h.slot, h.held⟩
    have h2 : (State.fireOrder ({ w with clock := m, timers := s.timers.filter (·.fireAt ≠ m) } : State D)
          (s.timers.filter (·.fireAt = m))).1 =
        (State.fireOrder ({ s with clock := m, timers := s.timers.filter (·.fireAt ≠ m) } : State B)
          (s.timers.filter (·.fireAt = m))).1 ∧
        Sim Q [] (State.fireOrder ({ s with clock := m, timers := s.timers.filter (·.fireAt ≠ m) } : State B)
          (s.timers.filter (·.fireAt = m))).2
          (State.fireOrder ({ w with clock := m, timers := s.timers.filter (·.fireAt ≠ m) } : State D)
          (s.timers.filter (·.fireAt = m))).2 := by
      unfold State.fireOrder
      split
      · exact Sim.drawOrder _ _ h1
      · exact ⟨rfl, h1⟩
    simp only [h2.1]
    exact Sim.fireAll _ h2.2

end Verif.Sched
