import Verif.Sched.Sends
/-!
# Replacing the chooser; replaying a recorded run
-/

namespace Verif.Sched
variable {B : Type} {poll : B → Ctx → Step B × B} {prioOf : B → Nat}

/-- The same state with another chooser. -/
def setc (s : State B) (ch : Chooser) : State B := { s with chooser := ch }

theorem setc_self (s : State B) : setc s s.chooser = s := rfl
theorem setc_setc (s : State B) (a b : Chooser) : setc (setc s a) b = setc s b := rfl

/-! ## Operations that do not consult the chooser -/

theorem c_note (s : State B) (ch : Chooser) (e : Ev B) : (setc s ch).note e = setc (s.note e) ch := rfl
theorem c_results (s : State B) (ch : Chooser) : (setc s ch).results = s.results := rfl
theorem c_tasks (s : State B) (ch : Chooser) : (setc s ch).tasks = s.tasks := rfl
theorem c_chan (s : State B) (ch : Chooser) (c : Nat) : (setc s ch).chan c = s.chan c := rfl
theorem c_stateOf (s : State B) (ch : Chooser) (t : Nat) : (setc s ch).stateOf t = s.stateOf t := rfl
theorem c_armsOf (s : State B) (ch : Chooser) (t : Nat) : (setc s ch).armsOf t = s.armsOf t := rfl
theorem c_isMain (s : State B) (ch : Chooser) (t : Nat) : (setc s ch).isMain t = s.isMain t := rfl
theorem c_prio (s : State B) (ch : Chooser) : (setc s ch).prio = s.prio := rfl
theorem c_cancel (s : State B) (ch : Chooser) (r : Nat) (k : Option Nat) :
    (setc s ch).cancel r k = setc (s.cancel r k) ch := rfl
theorem c_purge (s : State B) (ch : Chooser) (u : Nat) : (setc s ch).purge u = setc (s.purge u) ch := rfl
theorem c_addChan (s : State B) (ch : Chooser) (cap : Option Nat) :
    (setc s ch).addChan cap = setc (s.addChan cap) ch := rfl
theorem c_addTask (s : State B) (ch : Chooser) (b : B) (p : Nat) (m : Bool) :
    (setc s ch).addTask b p m = setc (s.addTask b p m) ch := rfl
theorem c_outcome (s : State B) (ch : Chooser) : (setc s ch).outcome = s.outcome := rfl

theorem c_modTask (s : State B) (ch : Chooser) (t : Nat) (f : Slot B → Slot B) :
    (setc s ch).modTask t f = setc (s.modTask t f) ch := by
  show (match s.tasks t with | none => _ | some sl => _) = _
  unfold State.modTask
  cases s.tasks t <;> rfl

theorem c_modChan (s : State B) (ch : Chooser) (c : Nat) (f : Chan → Chan) :
    (setc s ch).modChan c f = setc (s.modChan c f) ch := by
  show (match s.chans c with | none => _ | some sl => _) = _
  unfold State.modChan
  cases s.chans c <;> rfl

theorem c_markReady (s : State B) (ch : Chooser) (t : Nat) (v : Payload) :
    (setc s ch).markReady t v = setc (s.markReady t v) ch :=
  c_modTask ({ s with ready := s.ready ++ [t] } : State B) ch t _

theorem c_win (s : State B) (ch : Chooser) (t i : Nat) (v : Payload) :
    (setc s ch).win t i v = setc (s.win t i v) ch :=
  c_modTask ({ s with ready := s.ready ++ [t] } : State B) ch t _

theorem c_park (s : State B) (ch : Chooser) (t : Nat) (st : TState) :
    (setc s ch).park t st = setc (s.park t st) ch := c_modTask s ch t _

theorem c_clearArms (s : State B) (ch : Chooser) (t : Nat) :
    (setc s ch).clearArms t = setc (s.clearArms t) ch := c_modTask s ch t _

theorem c_deliver (s : State B) (ch : Chooser) (r c : Nat) (v : Payload) :
    (setc s ch).deliver r c v = setc (s.deliver r c v) ch := by
  unfold State.deliver
  rw [c_armsOf]
  split
  · split
    · rfl
    · rw [c_clearArms, c_win, c_cancel, c_note]
  · rw [c_markReady, c_note]

theorem c_refill (s : State B) (ch : Chooser) (c : Nat) : (setc s ch).refill c = setc (s.refill c) ch := by
  unfold State.refill
  rw [c_chan]
  split
  · split
    · rfl
    · rw [c_modChan, c_note, c_markReady]
  · rfl

theorem c_doSend (s : State B) (ch : Chooser) (t c : Nat) (p : Payload) :
    (setc s ch).doSend t c p = setc (s.doSend t c p) ch := by
  unfold State.doSend
  rw [c_chan]
  split
  · rw [c_modChan, c_note, c_note, c_deliver, c_markReady]
  · split
    · rw [c_modChan, c_note, c_note, c_markReady]
    · rw [c_modChan, c_note, c_park]

theorem c_doTrySend (s : State B) (ch : Chooser) (t c : Nat) (p : Payload) :
    (setc s ch).doTrySend t c p = setc (s.doTrySend t c p) ch := by
  unfold State.doTrySend
  rw [c_chan]
  split
  · rw [c_modChan, c_note, c_note, c_deliver, c_markReady]
  · split
    · rw [c_modChan, c_note, c_note, c_markReady]
    · rw [c_markReady]

theorem c_takeFor (s : State B) (ch : Chooser) (t c : Nat) :
    (setc s ch).takeFor t c = (s.takeFor t c).map (setc · ch) := by
  unfold State.takeFor
  rw [c_chan]
  split
  · rw [c_modChan, c_note, c_markReady, c_refill]; rfl
  · split
    · rw [c_modChan, c_note, c_note, c_markReady, c_markReady]; rfl
    · rfl

theorem c_doRecv (s : State B) (ch : Chooser) (t c : Nat) : (setc s ch).doRecv t c = setc (s.doRecv t c) ch := by
  unfold State.doRecv
  rw [c_takeFor, c_chan]
  cases s.takeFor t c with
  | some s' => rfl
  | none =>
    simp only [Option.map_none]
    split
    · rw [c_markReady]
    · rw [c_modChan, c_park]

theorem c_doTryRecv (s : State B) (ch : Chooser) (t c : Nat) :
    (setc s ch).doTryRecv t c = setc (s.doTryRecv t c) ch := by
  unfold State.doTryRecv
  rw [c_takeFor]
  cases s.takeFor t c with
  | some s' => rfl
  | none =>
    simp only [Option.map_none]
    rw [c_markReady]

theorem c_takeOne (s : State B) (ch : Chooser) (t c : Nat) :
    (setc s ch).takeOne t c = ((s.takeOne t c).1, setc (s.takeOne t c).2 ch) := by
  unfold State.takeOne
  rw [c_chan]
  split
  · rw [c_modChan, c_note, c_refill]
  · split
    · rw [c_modChan, c_note, c_note, c_markReady]
    · rfl

theorem c_readyArms (ch : Chooser) (arms : List Arm) : ∀ (s : State B) (i : Nat),
    (setc s ch).readyArms i arms = s.readyArms i arms := by
  induction arms with
  | nil => intro s i; rfl
  | cons a as ih =>
    intro s i
    cases a with
    | recv c => simp only [State.readyArms, c_chan, ih]
    | timeout d => simp only [State.readyArms, ih]

theorem c_registerAll (ch : Chooser) (arms : List Arm) : ∀ (s : State B) (t i : Nat),
    (setc s ch).registerAll t i arms = setc (s.registerAll t i arms) ch := by
  induction arms with
  | nil => intro s t i; rfl
  | cons a as ih =>
    intro s t i
    have : (setc s ch).register t i a = setc (s.register t i a) ch := by
      cases a with
      | recv c => exact c_modChan _ _ _ _
      | timeout d =>
        simp only [State.register]
        show (if s.clock + d < 2 ^ 64 then _ else _) = _
        split <;> rfl
    simp only [State.registerAll, this, ih]

theorem c_winNow (s : State B) (ch : Chooser) (t : Nat) (arms : List Arm) (i : Nat) :
    (setc s ch).winNow t arms i = setc (s.winNow t arms i) ch := by
  unfold State.winNow
  split
  · rw [c_takeOne, c_win]
  · rfl

theorem c_fireTimer (s : State B) (ch : Chooser) (t : Nat) (a : Option Nat) :
    (setc s ch).fireTimer t a = setc (s.fireTimer t a) ch := by
  unfold State.fireTimer
  rw [c_stateOf, c_armsOf]
  split
  · split
    · split
      · rw [c_clearArms, c_win, c_cancel]
      · rw [c_win]
    · rw [c_markReady]
  · rfl

theorem c_fireAll (ch : Chooser) (es : List Timer) : ∀ (s : State B),
    (setc s ch).fireAll es = setc (s.fireAll es) ch := by
  induction es with
  | nil => intro s; rfl
  | cons e es ih => intro s; simp only [State.fireAll, c_fireTimer, ih]

theorem c_wakeAll (ch : Chooser) (ws : List Nat) : ∀ (s : State B) (p : Payload),
    (setc s ch).wakeAll p ws = setc (s.wakeAll p ws) ch := by
  induction ws with
  | nil => intro s p; rfl
  | cons w ws ih => intro s p; simp only [State.wakeAll, c_markReady, ih]

theorem c_complete (s : State B) (ch : Chooser) (t : Nat) (r : Result) :
    (setc s ch).complete t r = setc (s.complete t r) ch :=
  c_wakeAll ch _ ({ s with awaiters := upd s.awaiters t [], results := upd s.results t (some r) } : State B) _

theorem c_wakeClosedAll (ch : Chooser) (ws : List Nat) : ∀ (s : State B) (c : Nat),
    (setc s ch).wakeClosedAll c ws = setc (s.wakeClosedAll c ws) ch := by
  induction ws with
  | nil => intro s p; rfl
  | cons w ws ih =>
    intro s c
    have : (setc s ch).wakeClosed w c = setc (s.wakeClosed w c) ch := by
      unfold State.wakeClosed
      rw [c_armsOf]
      split
      · rw [c_clearArms, c_win, c_cancel]
      · rw [c_markReady]
    simp only [State.wakeClosedAll, this, ih]

theorem c_doClose (s : State B) (ch : Chooser) (c : Nat) : (setc s ch).doClose c = setc (s.doClose c) ch := by
  unfold State.doClose
  rw [c_chan, c_modChan, c_wakeClosedAll]

theorem c_doAwait (s : State B) (ch : Chooser) (t u : Nat) : (setc s ch).doAwait t u = setc (s.doAwait t u) ch := by
  unfold State.doAwait
  rw [c_results, c_tasks]
  split
  · rw [c_markReady]
  · split
    · rw [c_note, c_markReady]
    · exact c_park ({ s with awaiters := upd s.awaiters u (s.awaiters u ++ [t]) } : State B) ch t _

theorem c_doAbort (s : State B) (ch : Chooser) (u : Nat) : (setc s ch).doAbort u = setc (s.doAbort u) ch := by
  unfold State.doAbort
  rw [c_stateOf, c_results]
  split
  · rfl
  · split
    · rfl
    · rfl
    · rw [c_purge, c_park, c_complete]

theorem c_wakeEach (ch : Chooser) (ts : List Nat) : ∀ (s : State B),
    (setc s ch).wakeEach ts = setc (s.wakeEach ts) ch := by
  induction ts with
  | nil => intro s; rfl
  | cons t ts ih =>
    intro s
    have : (setc s ch).wakeOne t = setc (s.wakeOne t) ch :=
      c_modTask ({ s with ready := s.ready ++ [t] } : State B) ch t _
    simp only [State.wakeEach, this, ih]

theorem c_wakeIo (s : State B) (ch : Chooser) : (setc s ch).wakeIo = setc s.wakeIo ch := c_wakeEach ch _ s

theorem c_pollTask (s : State B) (ch : Chooser) (t : Nat) :
    (setc s ch).pollTask poll t = ((s.pollTask poll t).1, setc (s.pollTask poll t).2 ch) := by
  unfold State.pollTask
  show (match s.tasks t with | none => _ | some sl => _) = _
  cases s.tasks t <;> rfl

/-! ## Recording and replaying -/

/-- From state `s`, `F` records some choices, and replaying any trace that extends them does the same. -/
def RepAt {A : Type} (F : State B → A × State B) (s : State B) : Prop :=
  ∀ rng seed cs, s.chooser = .record rng seed cs →
    ∃ rng' more, (F s).2.chooser = .record rng' seed (cs ++ more) ∧
      ∀ T, (cs ++ more) <+: T →
        F (setc s (.replay seed T cs.length)) = ((F s).1, setc (F s).2 (.replay seed T (cs ++ more).length))

theorem RepAt.bind {A C : Type} {F : State B → A × State B} {G : A → State B → C × State B} {s : State B}
    (hF : RepAt F s) (hG : RepAt (G (F s).1) (F s).2) : RepAt (fun s => G (F s).1 (F s).2) s := by
  intro rng seed cs h
  obtain ⟨rng1, m1, a1, b1⟩ := hF rng seed cs h
  obtain ⟨rng2, m2, a2, b2⟩ := hG rng1 seed _ a1
  refine ⟨rng2, m1 ++ m2, by rw [a2, List.append_assoc], ?_⟩
  intro T hT
  rw [← List.append_assoc] at hT
  have hT1 : (cs ++ m1) <+: T := (List.prefix_append _ _).trans hT
  show G (F (setc s _)).1 (F (setc s _)).2 = _
  rw [b1 T hT1]
  have := b2 T hT
  rw [this, List.append_assoc]

theorem RepAt.congr {A : Type} {F F' : State B → A × State B} {s : State B} (h : RepAt F' s)
    (e : ∀ ch, F (setc s ch) = F' (setc s ch)) : RepAt F s := by
  intro rng seed cs hc
  obtain ⟨rng', more, a, b⟩ := h rng seed cs hc
  have e0 : F s = F' s := e s.chooser
  refine ⟨rng', more, by rw [e0]; exact a, ?_⟩
  intro T hT
  rw [e, b T hT, e0]

theorem RepAt.free {A : Type} {F : State B → A × State B} {s : State B}
    (e : ∀ ch, F (setc s ch) = ((F s).1, setc (F s).2 ch)) : RepAt F s := by
  intro rng seed cs hc
  have hch : (F s).2.chooser = s.chooser := by
    have := e s.chooser
    rw [setc_self] at this
    have := congrArg (fun x => x.2.chooser) this
    exact this
  refine ⟨rng, [], by rw [hch, hc, List.append_nil], ?_⟩
  intro T hT
  rw [e, List.append_nil]

theorem RepAt.decide (k : Kind) (n : Nat) (s : State B) : RepAt (fun s => s.decide k n) s := by
  intro rng seed cs hc
  refine ⟨(below rng n).2, [⟨k, n, (below rng n).1⟩], ?_, ?_⟩
  · simp only [State.decide, hc, Chooser.decide]
  · intro T hT
    have hg : T[cs.length]? = some ⟨k, n, (below rng n).1⟩ := by
      obtain ⟨r, rfl⟩ := hT
      simp
    simp only [State.decide, hc, Chooser.decide, setc, hg, and_self, if_true, List.length_append,
      List.length_cons, List.length_nil]

/-- State-only functions. -/
def lift (F : State B → State B) : State B → Unit × State B := fun s => ((), F s)

theorem RepAt.pickIndex (s : State B) : RepAt State.pickIndex s := by
  cases hp : s.cfg.policy with
  | fifo => exact RepAt.free fun ch => by simp only [State.pickIndex, setc, hp]
  | roundRobin => exact RepAt.free fun ch => by simp only [State.pickIndex, setc, hp]
  | lifo => exact RepAt.free fun ch => by simp only [State.pickIndex, setc, hp]
  | random =>
    refine (RepAt.decide .taskPick s.ready.length s).congr ?_
    intro ch
    have : (setc s ch).cfg.policy = .random := hp
    simp only [State.pickIndex, this]
    rfl
  | priority =>
    refine RepAt.free fun ch => ?_
    have : (setc s ch).cfg.policy = .priority := hp
    have hr : (setc s ch).ready = s.ready := rfl
    simp only [State.pickIndex, this, hp, hr, c_prio]
    cases s.ready <;> rfl

theorem RepAt.pickReady (s : State B) : RepAt State.pickReady s := by
  refine RepAt.bind (G := fun i s => s.removeReady i) (RepAt.pickIndex s) (RepAt.free ?_)
  intro ch
  generalize s.pickIndex.2 = s1
  generalize s.pickIndex.1 = i
  have hr : (setc s1 ch).ready = s1.ready := rfl
  simp only [State.removeReady, hr]
  cases s1.ready[i]? <;> rfl

theorem RepAt.doSelect (t : Nat) (arms : List Arm) (s : State B) : RepAt (lift fun s => s.doSelect t arms) s := by
  have hch : ∀ ch, (setc s ch).unknownArm = s.unknownArm := by
    intro ch; funext a; cases a <;> rfl
  by_cases hany : arms.any s.unknownArm = true
  · refine RepAt.free fun ch => ?_
    simp only [lift, State.doSelect, hch, hany, if_true]
    rfl
  · have hany' : arms.any s.unknownArm = false := by
      simpa using hany
    cases hr : s.readyArms 0 arms with
    | nil =>
      refine RepAt.free fun ch => ?_
      simp only [lift, State.doSelect, hch, hany', hr, c_readyArms, Bool.false_eq_true, if_false]
      rw [c_registerAll, c_modTask]
    | cons i is =>
      have hpick : RepAt (fun s => s.pickArm (i :: is)) s := by
        by_cases h1 : (i :: is).length = 1
        · refine RepAt.free fun ch => ?_
          simp only [State.pickArm, h1, if_true]
        · refine RepAt.congr (F' := fun s => ((i :: is)[(s.decide .selectWinner (i :: is).length).1]?,
            (s.decide .selectWinner (i :: is).length).2)) ?_ ?_
          · exact RepAt.bind (G := fun j s => ((i :: is)[j]?, s)) (RepAt.decide _ _ s) (RepAt.free fun ch => rfl)
          · intro ch
            simp only [State.pickArm, h1, if_false]
      refine RepAt.congr (F' := fun s => (match (s.pickArm (i :: is)).1 with
        | none => lift fun s => { s with crashed := true }
        | some w => lift fun s => s.winNow t arms w) (s.pickArm (i :: is)).2) ?_ ?_
      · refine RepAt.bind (G := fun o => match o with
          | none => lift fun s => { s with crashed := true }
          | some w => lift fun s => s.winNow t arms w) hpick ?_
        split
        · exact RepAt.free fun ch => rfl
        · refine RepAt.free fun ch => ?_
          simp only [lift, c_winNow]
      · intro ch
        simp only [lift, State.doSelect, hch, hany', hr, c_readyArms, Bool.false_eq_true, if_false]
        cases (State.pickArm (setc s ch) (i :: is)).1 <;> rfl

theorem RepAt.process (prioOf : B → Nat) (t : Nat) (st : Step B) (s : State B) :
    RepAt (lift fun s => s.process prioOf t st) s := by
  have free : (∀ ch, (setc s ch).process prioOf t st = setc (s.process prioOf t st) ch) →
      RepAt (lift fun s => s.process prioOf t st) s := fun h => RepAt.free fun ch => by simp only [lift, h]
  cases st with
  | yield => exact free fun ch => c_markReady s ch t _
  | await u => exact free fun ch => c_doAwait s ch t u
  | abort u => exact free fun ch => by simp only [State.process, c_doAbort, c_markReady]
  | close c => exact free fun ch => by simp only [State.process, c_doClose, c_markReady]
  | exit v =>
    refine free fun ch => ?_
    have := c_park ({ s with mainResult := if s.isMain t then some v else s.mainResult } : State B) ch t .done
    simp only [State.process]
    rw [← c_complete, ← this]
    rfl
  | spawn b =>
    refine free fun ch => ?_
    simp only [State.process, c_addTask, c_modTask, c_markReady]
    rfl
  | newChan cap =>
    refine free fun ch => ?_
    simp only [State.process, c_addChan, c_modTask, c_markReady]
    rfl
  | send c p => exact free fun ch => c_doSend s ch t c p
  | trySend c p => exact free fun ch => c_doTrySend s ch t c p
  | recv c => exact free fun ch => c_doRecv s ch t c
  | tryRecv c => exact free fun ch => c_doTryRecv s ch t c
  | sleep d =>
    refine free fun ch => ?_
    simp only [State.process]
    show (if s.clock + d < 2 ^ 64 then _ else _) = _
    split
    · exact c_park ({ s with timers := s.timers ++ [⟨s.clock + d, t, none⟩] } : State B) ch t _
    · rfl
  | select arms => exact RepAt.doSelect t arms s
  | ioPending => exact free fun ch => c_park s ch t _

/-- The rest of `drawOrder` after its first draw. -/
def drawK (n : Nat) (pool : List Timer) (i : Nat) (s : State B) : List Timer × State B :=
  match pool[i]? with
  | none => ([], { s with crashed := true })
  | some e => (e :: (State.drawOrder n (pool.eraseIdx i) s).1, (State.drawOrder n (pool.eraseIdx i) s).2)

theorem RepAt.drawOrder (n : Nat) : ∀ (pool : List Timer) (s : State B), RepAt (State.drawOrder n pool) s := by
  induction n with
  | zero => intro pool s; exact RepAt.free fun ch => rfl
  | succ n ih =>
    intro pool s
    refine RepAt.congr (F' := fun s => drawK n pool
        (s.decide .timerTieBreak pool.length).1 (s.decide .timerTieBreak pool.length).2) ?_ ?_
    · refine RepAt.bind (RepAt.decide _ _ s) ?_
      generalize (s.decide .timerTieBreak pool.length).1 = i
      unfold drawK
      cases hp : pool[i]? with
      | none => exact RepAt.free fun ch => rfl
      | some e =>
        exact RepAt.bind (G := fun r s => (e :: r, s)) (ih _ _) (RepAt.free fun ch => rfl)
    · intro ch
      simp only [State.drawOrder, drawK]
      cases pool[(State.decide (setc s ch) .timerTieBreak pool.length).1]? <;> rfl

/-- Moving the clock and dropping the due timers. -/
def advA (m : Nat) (s : State B) : Unit × State B :=
  ((), { s with clock := m, timers := s.timers.filter (·.fireAt ≠ m) })

/-- Firing in order. -/
def advK (es : List Timer) (s : State B) : Unit × State B := ((), s.fireAll es)

/-- Ordering and firing. -/
def advB (due : List Timer) (_ : Unit) (s : State B) : Unit × State B :=
  advK (s.fireOrder due).1 (s.fireOrder due).2

theorem RepAt.advB (due : List Timer) (s : State B) : RepAt (advB due ()) s := by
  refine RepAt.bind (F := fun s0 => s0.fireOrder due) (G := advK) ?_ ?_
  · by_cases hl : due.length > 1
    · refine RepAt.congr (RepAt.drawOrder due.length due _) ?_
      intro ch
      simp only [State.fireOrder, hl, if_true]
    · refine RepAt.free fun ch => ?_
      simp only [State.fireOrder, hl, if_false]
  · exact RepAt.free fun ch => by simp only [advK, c_fireAll]

theorem RepAt.advance (s : State B) : RepAt (lift State.advanceTimers) s := by
  cases he : State.earliest s.timers with
  | none =>
    refine RepAt.free fun ch => ?_
    have : (setc s ch).timers = s.timers := rfl
    simp only [lift, State.advanceTimers, this, he]
  | some m =>
    refine RepAt.congr (F' := fun s0 => Sched.advB (s.timers.filter (·.fireAt = m)) (advA m s0).1 (advA m s0).2) ?_ ?_
    · exact RepAt.bind (F := advA m) (G := Sched.advB (s.timers.filter (·.fireAt = m))) (RepAt.free fun ch => rfl)
        (RepAt.advB _ _)
    · intro ch
      have : (setc s ch).timers = s.timers := rfl
      simp only [lift, State.advanceTimers, this, he]
      rfl

/-- Not at quiescence. -/
def goOn {A : Type} (_ : A) (s : State B) : Option State.Outcome × State B := (none, s)

/-- After the step of a polled task. -/
def stepK (prioOf : B → Nat) (t : Nat) (o : Option (Step B)) (s : State B) : Option State.Outcome × State B :=
  match o with
  | none => (none, s)
  | some st => (none, s.process prioOf t st)

/-- After a task was picked. -/
def pickK (poll : B → Ctx → Step B × B) (prioOf : B → Nat) (o : Option Nat) (s : State B) :
    Option State.Outcome × State B :=
  match o with
  | none => (none, s)
  | some t => (none, State.dispatch poll prioOf s t)

/-- After one step of a slice. -/
def sliceK (poll : B → Ctx → Step B × B) (prioOf : B → Nat) (n : Nat) (o : Option State.Outcome) (s : State B) :
    Option State.Outcome × State B :=
  match o with
  | some o => (some o, s)
  | none => State.runSlice poll prioOf n s

theorem RepAt.pollOnce (s : State B) : RepAt (fun s => s.pollOnce poll prioOf) s := by
  cases hr : s.ready with
  | nil =>
    have hr' : ∀ ch, (setc s ch).ready = [] := fun _ => hr
    have ht' : ∀ ch, (setc s ch).timers = s.timers := fun _ => rfl
    by_cases ht : s.timers = []
    · refine RepAt.free fun ch => ?_
      simp only [State.pollOnce, hr, hr', ht', ht, if_true, c_outcome]
    · refine RepAt.congr (F' := fun s => goOn (lift State.advanceTimers s).1 (lift State.advanceTimers s).2)
        (RepAt.bind (RepAt.advance s) (RepAt.free fun ch => rfl)) ?_
      intro ch
      simp only [State.pollOnce, hr', ht', ht, if_false, lift, goOn]
  | cons t0 ts =>
    have hr' : ∀ ch, (setc s ch).ready = t0 :: ts := fun _ => hr
    refine RepAt.congr (F' := fun s => pickK poll prioOf s.pickReady.1 s.pickReady.2) ?_ ?_
    · refine RepAt.bind (G := pickK poll prioOf) (RepAt.pickReady s) ?_
      generalize s.pickReady.1 = o
      generalize s.pickReady.2 = s1
      cases o with
      | none => exact RepAt.free fun ch => rfl
      | some t =>
        refine RepAt.congr (F' := fun s => stepK prioOf t (s.pollTask poll t).1 (s.pollTask poll t).2) ?_ ?_
        · refine RepAt.bind (F := fun s => s.pollTask poll t) (G := stepK prioOf t)
            (RepAt.free fun ch => c_pollTask s1 ch t) ?_
          generalize (s1.pollTask poll t).1 = o
          generalize (s1.pollTask poll t).2 = s2
          cases o with
          | none => exact RepAt.free fun ch => rfl
          | some st =>
            exact RepAt.bind (F := lift fun s => s.process prioOf t st) (G := goOn)
              (RepAt.process prioOf t st s2) (RepAt.free fun ch => rfl)
        · intro ch
          simp only [pickK, stepK, State.dispatch]
          cases (State.pollTask poll (setc s1 ch) t).1 <;> rfl
    · intro ch
      simp only [State.pollOnce, hr', pickK]
      cases (State.pickReady (setc s ch)).1 <;> rfl

theorem RepAt.runSlice (n : Nat) : ∀ (s : State B), RepAt (State.runSlice poll prioOf n) s := by
  induction n with
  | zero => intro s; exact RepAt.free fun ch => rfl
  | succ n ih =>
    intro s
    cases hc : s.crashed with
    | true =>
      refine RepAt.free fun ch => ?_
      have : (setc s ch).crashed = true := hc
      simp only [State.runSlice, this, hc, if_true]
    | false =>
      refine RepAt.congr (F' := fun s => sliceK poll prioOf n (s.pollOnce poll prioOf).1 (s.pollOnce poll prioOf).2) ?_ ?_
      · refine RepAt.bind (G := sliceK poll prioOf n) (RepAt.pollOnce s) ?_
        generalize (s.pollOnce poll prioOf).1 = o
        generalize (s.pollOnce poll prioOf).2 = s1
        cases o with
        | none => exact ih s1
        | some o => exact RepAt.free fun ch => rfl
      · intro ch
        have : (setc s ch).crashed = false := hc
        simp only [State.runSlice, this, Bool.false_eq_true, if_false, sliceK]
        cases (State.pollOnce poll prioOf (setc s ch)).1 <;> rfl

end Verif.Sched
