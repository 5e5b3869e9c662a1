import Verif.Sched.History
/-!
# Which operations log a send, and how the ready list grows
-/

namespace Verif.Sched
variable {B : Type} {poll : B → Ctx → Step B × B} {prioOf : B → Nat}

/-- No send was logged. -/
def Mute (s s' : State B) : Prop := ∀ c, sentOn c s'.log = sentOn c s.log

theorem Mute.refl (s : State B) : Mute s s := fun _ => rfl

theorem Mute.trans {a b c : State B} (h : Mute a b) (g : Mute b c) : Mute a c := fun k => (g k).trans (h k)

/-- A send event. -/
def isSent : Ev B → Bool
  | .sent _ _ _ => true
  | _ => false

theorem mute_log {s s' : State B} (h : s'.log = s.log) : Mute s s' := fun c => by rw [h]

theorem mute_note (s : State B) {e : Ev B} (h : isSent e = false) : Mute s (s.note e) := by
  intro c
  show sentOn c (s.log ++ [e]) = _
  rw [sentOn_append]
  cases e <;> simp_all [sentOn, isSent]

theorem mute_crash (s : State B) : Mute s { s with crashed := true } := mute_log rfl

theorem mute_modTask (s : State B) (t : Nat) (f : Slot B → Slot B) : Mute s (s.modTask t f) := by
  refine mute_log ?_
  unfold State.modTask; split <;> rfl

theorem mute_modChan (s : State B) (c : Nat) (f : Chan → Chan) : Mute s (s.modChan c f) := by
  refine mute_log ?_
  unfold State.modChan; split <;> rfl

theorem mute_cancel (s : State B) (r : Nat) (k : Option Nat) : Mute s (s.cancel r k) := mute_log rfl

theorem mute_purge (s : State B) (u : Nat) : Mute s (s.purge u) := mute_log rfl

theorem mute_markReady (s : State B) (t : Nat) (v : Payload) : Mute s (s.markReady t v) :=
  (mute_log (s := s) (s' := { s with ready := s.ready ++ [t] }) rfl).trans
    (mute_modTask _ _ _)

theorem mute_win (s : State B) (t i : Nat) (v : Payload) : Mute s (s.win t i v) :=
  (mute_log (s := s) (s' := { s with ready := s.ready ++ [t] }) rfl).trans
    (mute_modTask _ _ _)

theorem mute_park (s : State B) (t : Nat) (st : TState) : Mute s (s.park t st) :=
  mute_modTask _ _ _

theorem mute_clearArms (s : State B) (t : Nat) : Mute s (s.clearArms t) :=
  mute_modTask _ _ _

theorem mute_decide (s : State B) (k : Kind) (n : Nat) : Mute s (s.decide k n).2 := by
  unfold State.decide
  split
  · exact mute_crash s
  · exact mute_log rfl

theorem mute_deliver (s : State B) (r c : Nat) (v : Payload) : Mute s (s.deliver r c v) := by
  unfold State.deliver
  split
  · split
    · exact mute_crash s
    · exact (((mute_clearArms _ _).trans (mute_win _ _ _ _)).trans (mute_cancel _ _ _)).trans (mute_note _ rfl)
  · exact (mute_markReady _ _ _).trans (mute_note _ rfl)

theorem mute_refill (s : State B) (c : Nat) : Mute s (s.refill c) := by
  unfold State.refill
  split
  · split
    · exact Mute.refl s
    · exact ((mute_modChan _ _ _).trans (mute_note _ rfl)).trans (mute_markReady _ _ _)
  · exact Mute.refl s

theorem mute_takeFor {s s' : State B} {t c : Nat} (e : s.takeFor t c = some s') : Mute s s' := by
  unfold State.takeFor at e
  split at e
  · cases e
    exact (((mute_modChan _ _ _).trans (mute_note _ rfl)).trans (mute_markReady _ _ _)).trans
      (mute_refill _ _)
  · split at e
    · cases e
      exact ((((mute_modChan _ _ _).trans (mute_note _ rfl)).trans (mute_note _ rfl)).trans
        (mute_markReady _ _ _)).trans (mute_markReady _ _ _)
    · cases e

theorem mute_doRecv (s : State B) (t c : Nat) : Mute s (s.doRecv t c) := by
  unfold State.doRecv
  split
  · next e => exact mute_takeFor e
  · split
    · exact mute_markReady _ _ _
    · exact (mute_modChan _ _ _).trans (mute_park _ _ _)

theorem mute_doTryRecv (s : State B) (t c : Nat) : Mute s (s.doTryRecv t c) := by
  unfold State.doTryRecv
  split
  · next e => exact mute_takeFor e
  · exact mute_markReady _ _ _

theorem mute_takeOne (s : State B) (t c : Nat) : Mute s (s.takeOne t c).2 := by
  unfold State.takeOne
  split
  · exact ((mute_modChan _ _ _).trans (mute_note _ rfl)).trans (mute_refill _ _)
  · split
    · exact (((mute_modChan _ _ _).trans (mute_note _ rfl)).trans (mute_note _ rfl)).trans
        (mute_markReady _ _ _)
    · exact Mute.refl s

theorem mute_registerAll (arms : List Arm) : ∀ (s : State B) (t i : Nat), Mute s (s.registerAll t i arms) := by
  induction arms with
  | nil => intro s t i; exact Mute.refl s
  | cons a as ih =>
    intro s t i
    refine Mute.trans ?_ (ih _ _ _)
    cases a with
    | recv c => exact mute_modChan _ _ _
    | timeout d =>
      simp only [State.register]
      split
      · exact mute_log rfl
      · exact mute_crash s

theorem mute_winNow (s : State B) (t : Nat) (arms : List Arm) (i : Nat) : Mute s (s.winNow t arms i) := by
  unfold State.winNow
  split
  · exact (mute_takeOne _ _ _).trans (mute_win _ _ _ _)
  · exact mute_crash s

theorem mute_doSelect (s : State B) (t : Nat) (arms : List Arm) : Mute s (s.doSelect t arms) := by
  unfold State.doSelect
  split
  · exact mute_crash s
  · split
    · exact (mute_registerAll _ _ _ _).trans (mute_modTask _ _ _)
    · split
      · refine Mute.trans ?_ (mute_crash _)
        unfold State.pickArm
        split
        · exact Mute.refl s
        · exact mute_decide _ _ _
      · refine Mute.trans ?_ (mute_winNow _ _ _ _)
        unfold State.pickArm
        split
        · exact Mute.refl s
        · exact mute_decide _ _ _

theorem mute_fireTimer (s : State B) (t : Nat) (a : Option Nat) : Mute s (s.fireTimer t a) := by
  unfold State.fireTimer
  split
  · split
    · split
      · exact ((mute_clearArms _ _).trans (mute_win _ _ _ _)).trans (mute_cancel _ _ _)
      · exact mute_win _ _ _ _
    · exact mute_markReady _ _ _
  · exact Mute.refl s

theorem mute_fireAll (es : List Timer) : ∀ (s : State B), Mute s (s.fireAll es) := by
  induction es with
  | nil => intro s; exact Mute.refl s
  | cons e es ih => intro s; exact (mute_fireTimer _ _ _).trans (ih _)

theorem mute_drawOrder (n : Nat) : ∀ (pool : List Timer) (s : State B), Mute s (State.drawOrder n pool s).2 := by
  induction n with
  | zero => intro pool s; exact Mute.refl s
  | succ n ih =>
    intro pool s
    unfold State.drawOrder
    split
    · exact (mute_decide _ _ _).trans (mute_crash _)
    · exact (mute_decide _ _ _).trans (ih _ _)

theorem mute_wakeAll (ws : List Nat) : ∀ (s : State B) (p : Payload), Mute s (s.wakeAll p ws) := by
  induction ws with
  | nil => intro s p; exact Mute.refl s
  | cons w ws ih => intro s p; exact (mute_markReady _ _ _).trans (ih _ _)

theorem mute_wakeClosedAll (ws : List Nat) : ∀ (s : State B) (c : Nat), Mute s (s.wakeClosedAll c ws) := by
  induction ws with
  | nil => intro s c; exact Mute.refl s
  | cons w ws ih =>
    intro s c
    refine Mute.trans ?_ (ih _ _)
    unfold State.wakeClosed
    split
    · exact ((mute_clearArms _ _).trans (mute_win _ _ _ _)).trans (mute_cancel _ _ _)
    · exact mute_markReady _ _ _

theorem mute_doAwait (s : State B) (t u : Nat) : Mute s (s.doAwait t u) := by
  unfold State.doAwait
  split
  · exact mute_markReady _ _ _
  · split
    · exact (mute_note _ rfl).trans (mute_markReady _ _ _)
    · exact (mute_log (s := s) (s' := { s with awaiters := upd s.awaiters u (s.awaiters u ++ [t]) }) rfl).trans (mute_park _ _ _)

theorem mute_doAbort (s : State B) (u : Nat) : Mute s (s.doAbort u) := by
  unfold State.doAbort
  split
  · exact Mute.refl s
  · split
    · exact Mute.refl s
    · exact Mute.refl s
    · exact ((mute_purge s u).trans (mute_park _ _ _)).trans
        (Mute.trans (mute_log (s' := { (s.purge u).park u .done with
          awaiters := upd ((s.purge u).park u .done).awaiters u []
          results := upd ((s.purge u).park u .done).results u (some .aborted) }) rfl) (mute_wakeAll _ _ _))

/-- What a processed step adds to the sends of a channel. -/
theorem process_sent (prioOf : B → Nat) (s : State B) (t : Nat) (st : Step B) (c : Nat) :
    sentOn c (s.process prioOf t st).log = sentOn c s.log ++ (match st with
      | .send c' p => if c' = c then [(t, p)] else []
      | .trySend c' p =>
        if c' = c ∧ ((s.chan c').receivers ≠ [] ∨ (s.chan c').hasRoom = true) then [(t, p)] else []
      | _ => []) := by
  have sent1 : ∀ (s : State B) (c' : Nat) (p : Payload), sentOn c (s.note (.sent c' t p)).log =
      sentOn c s.log ++ (if c' = c then [(t, p)] else []) := by
    intro s c' p
    show sentOn c (s.log ++ [_]) = _
    rw [sentOn_append]
    by_cases h : c' = c <;> simp [sentOn, h]
  cases st with
  | yield => exact (mute_markReady s t .nothing c).trans (List.append_nil _).symm
  | await u => exact (mute_doAwait s t u c).trans (List.append_nil _).symm
  | abort u => exact (((mute_doAbort s u).trans (mute_markReady _ t .nothing)) c).trans (List.append_nil _).symm
  | close c' => exact ((((mute_modChan s c' _).trans (mute_wakeClosedAll _ _ _)).trans (mute_markReady _ t .nothing)) c).trans (List.append_nil _).symm
  | exit v =>
    simp only [List.append_nil, State.process, State.complete]
    refine Mute.trans (mute_log (s' := { s with mainResult := if s.isMain t then some v else s.mainResult }) rfl)
      (Mute.trans (mute_park _ t .done) ?_) c
    generalize ({ s with mainResult := if s.isMain t then some v else s.mainResult } : State B).park t .done = s1
    exact Mute.trans (mute_log (s' := { s1 with
          awaiters := upd s1.awaiters t []
          results := upd s1.results t (some (.completed v)) }) rfl) (mute_wakeAll _ _ _)
  | spawn b =>
    simp only [List.append_nil]
    exact (Mute.trans (mute_log (s' := s.addTask b (prioOf b) false) rfl)
      ((mute_modTask _ t _).trans (mute_markReady _ t .nothing))) c
  | newChan cap =>
    simp only [List.append_nil]
    exact (Mute.trans (mute_log (s' := s.addChan (some (cap.getD s.cfg.defaultCap))) rfl)
      ((mute_modTask _ t _).trans (mute_markReady _ t .nothing))) c
  | send c' p =>
    simp only [State.process, State.doSend]
    split
    · rw [(((mute_note _ (e := .accepted c' t p) rfl).trans (mute_deliver _ _ _ _)).trans (mute_markReady _ _ _)) c, sent1,
        mute_modChan _ _ _ c]
    · split
      · rw [((mute_note _ (e := .accepted c' t p) rfl).trans (mute_markReady _ _ _)) c, sent1, mute_modChan _ _ _ c]
      · rw [mute_park _ _ _ c, sent1, mute_modChan _ _ _ c]
  | trySend c' p =>
    simp only [State.process, State.doTrySend]
    split
    · next r rs hr =>
      rw [(((mute_note _ (e := .accepted c' t p) rfl).trans (mute_deliver _ _ _ _)).trans (mute_markReady _ _ _)) c, sent1,
        mute_modChan _ _ _ c]
      simp [hr]
    · next hr =>
      split
      · next hroom =>
        rw [((mute_note _ (e := .accepted c' t p) rfl).trans (mute_markReady _ _ _)) c, sent1, mute_modChan _ _ _ c]
        simp [hroom]
      · next hroom =>
        rw [mute_markReady _ _ _ c]
        simp [hroom, hr]
  | recv c' => exact (mute_doRecv s t c' c).trans (List.append_nil _).symm
  | tryRecv c' => exact (mute_doTryRecv s t c' c).trans (List.append_nil _).symm
  | sleep d =>
    simp only [State.process, List.append_nil]
    split
    · exact (Mute.trans (mute_log (s' := { s with timers := s.timers ++ [⟨s.clock + d, t, none⟩] }) rfl) (mute_park _ _ _)) c
    · rfl
  | select arms => exact (mute_doSelect s t arms c).trans (List.append_nil _).symm
  | ioPending => exact (mute_park s t .blockedIo c).trans (List.append_nil _).symm

/-! ## The ready list -/

/-- The ready list only grew at the end. -/
def Grow (s s' : State B) : Prop := ∃ new, s'.ready = s.ready ++ new

theorem Grow.refl (s : State B) : Grow s s := ⟨[], by simp⟩

theorem Grow.trans {a b c : State B} (h : Grow a b) (g : Grow b c) : Grow a c := by
  obtain ⟨x, hx⟩ := h
  obtain ⟨y, hy⟩ := g
  exact ⟨x ++ y, by rw [hy, hx, List.append_assoc]⟩

theorem grow_eq {s s' : State B} (h : s'.ready = s.ready) : Grow s s' := ⟨[], by rw [h]; simp⟩

theorem grow_note (s : State B) (e : Ev B) : Grow s (s.note e) := grow_eq rfl

theorem grow_crash (s : State B) : Grow s { s with crashed := true } := grow_eq rfl

theorem grow_modTask (s : State B) (t : Nat) (f : Slot B → Slot B) : Grow s (s.modTask t f) := by
  refine grow_eq ?_
  unfold State.modTask; split <;> rfl

theorem grow_modChan (s : State B) (c : Nat) (f : Chan → Chan) : Grow s (s.modChan c f) := by
  refine grow_eq ?_
  unfold State.modChan; split <;> rfl

theorem grow_cancel (s : State B) (r : Nat) (k : Option Nat) : Grow s (s.cancel r k) := grow_eq rfl

theorem grow_markReady (s : State B) (t : Nat) (v : Payload) : Grow s (s.markReady t v) :=
  (show Grow s { s with ready := s.ready ++ [t] } from ⟨[t], rfl⟩).trans
    (grow_modTask _ _ _)

theorem grow_win (s : State B) (t i : Nat) (v : Payload) : Grow s (s.win t i v) :=
  (show Grow s { s with ready := s.ready ++ [t] } from ⟨[t], rfl⟩).trans
    (grow_modTask _ _ _)

theorem grow_park (s : State B) (t : Nat) (st : TState) : Grow s (s.park t st) :=
  grow_modTask _ _ _

theorem grow_clearArms (s : State B) (t : Nat) : Grow s (s.clearArms t) :=
  grow_modTask _ _ _

theorem grow_decide (s : State B) (k : Kind) (n : Nat) : Grow s (s.decide k n).2 := by
  unfold State.decide
  split
  · exact grow_crash s
  · exact grow_eq rfl

theorem grow_deliver (s : State B) (r c : Nat) (v : Payload) : Grow s (s.deliver r c v) := by
  unfold State.deliver
  split
  · split
    · exact grow_crash s
    · exact (((grow_clearArms _ _).trans (grow_win _ _ _ _)).trans (grow_cancel _ _ _)).trans (grow_note _ _)
  · exact (grow_markReady _ _ _).trans (grow_note _ _)

theorem grow_refill (s : State B) (c : Nat) : Grow s (s.refill c) := by
  unfold State.refill
  split
  · split
    · exact Grow.refl s
    · exact ((grow_modChan _ _ _).trans (grow_note _ _)).trans (grow_markReady _ _ _)
  · exact Grow.refl s

theorem grow_doSend (s : State B) (t c : Nat) (p : Payload) : Grow s (s.doSend t c p) := by
  unfold State.doSend
  split
  · exact ((((grow_modChan _ _ _).trans (grow_note _ _)).trans (grow_note _ _)).trans
      (grow_deliver _ _ _ _)).trans (grow_markReady _ _ _)
  · split
    · exact (((grow_modChan _ _ _).trans (grow_note _ _)).trans (grow_note _ _)).trans
        (grow_markReady _ _ _)
    · exact ((grow_modChan _ _ _).trans (grow_note _ _)).trans (grow_park _ _ _)

theorem grow_doTrySend (s : State B) (t c : Nat) (p : Payload) : Grow s (s.doTrySend t c p) := by
  unfold State.doTrySend
  split
  · exact ((((grow_modChan _ _ _).trans (grow_note _ _)).trans (grow_note _ _)).trans
      (grow_deliver _ _ _ _)).trans (grow_markReady _ _ _)
  · split
    · exact (((grow_modChan _ _ _).trans (grow_note _ _)).trans (grow_note _ _)).trans
        (grow_markReady _ _ _)
    · exact grow_markReady _ _ _

theorem grow_takeFor {s s' : State B} {t c : Nat} (e : s.takeFor t c = some s') : Grow s s' := by
  unfold State.takeFor at e
  split at e
  · cases e
    exact (((grow_modChan _ _ _).trans (grow_note _ _)).trans (grow_markReady _ _ _)).trans
      (grow_refill _ _)
  · split at e
    · cases e
      exact ((((grow_modChan _ _ _).trans (grow_note _ _)).trans (grow_note _ _)).trans
        (grow_markReady _ _ _)).trans (grow_markReady _ _ _)
    · cases e

theorem grow_doRecv (s : State B) (t c : Nat) : Grow s (s.doRecv t c) := by
  unfold State.doRecv
  split
  · next e => exact grow_takeFor e
  · split
    · exact grow_markReady _ _ _
    · exact (grow_modChan _ _ _).trans (grow_park _ _ _)

theorem grow_doTryRecv (s : State B) (t c : Nat) : Grow s (s.doTryRecv t c) := by
  unfold State.doTryRecv
  split
  · next e => exact grow_takeFor e
  · exact grow_markReady _ _ _

theorem grow_takeOne (s : State B) (t c : Nat) : Grow s (s.takeOne t c).2 := by
  unfold State.takeOne
  split
  · exact ((grow_modChan _ _ _).trans (grow_note _ _)).trans (grow_refill _ _)
  · split
    · exact (((grow_modChan _ _ _).trans (grow_note _ _)).trans (grow_note _ _)).trans
        (grow_markReady _ _ _)
    · exact Grow.refl s

theorem grow_registerAll (arms : List Arm) : ∀ (s : State B) (t i : Nat), Grow s (s.registerAll t i arms) := by
  induction arms with
  | nil => intro s t i; exact Grow.refl s
  | cons a as ih =>
    intro s t i
    refine Grow.trans ?_ (ih _ _ _)
    cases a with
    | recv c => exact grow_modChan _ _ _
    | timeout d =>
      simp only [State.register]
      split
      · exact grow_eq rfl
      · exact grow_crash s

theorem grow_winNow (s : State B) (t : Nat) (arms : List Arm) (i : Nat) : Grow s (s.winNow t arms i) := by
  unfold State.winNow
  split
  · exact (grow_takeOne _ _ _).trans (grow_win _ _ _ _)
  · exact grow_crash s

theorem grow_doSelect (s : State B) (t : Nat) (arms : List Arm) : Grow s (s.doSelect t arms) := by
  unfold State.doSelect
  split
  · exact grow_crash s
  · split
    · exact (grow_registerAll _ _ _ _).trans (grow_modTask _ _ _)
    · split
      · refine Grow.trans ?_ (grow_crash _)
        unfold State.pickArm
        split
        · exact Grow.refl s
        · exact grow_decide _ _ _
      · refine Grow.trans ?_ (grow_winNow _ _ _ _)
        unfold State.pickArm
        split
        · exact Grow.refl s
        · exact grow_decide _ _ _

theorem grow_fireTimer (s : State B) (t : Nat) (a : Option Nat) : Grow s (s.fireTimer t a) := by
  unfold State.fireTimer
  split
  · split
    · split
      · exact ((grow_clearArms _ _).trans (grow_win _ _ _ _)).trans (grow_cancel _ _ _)
      · exact grow_win _ _ _ _
    · exact grow_markReady _ _ _
  · exact Grow.refl s

theorem grow_fireAll (es : List Timer) : ∀ (s : State B), Grow s (s.fireAll es) := by
  induction es with
  | nil => intro s; exact Grow.refl s
  | cons e es ih => intro s; exact (grow_fireTimer _ _ _).trans (ih _)

theorem grow_drawOrder (n : Nat) : ∀ (pool : List Timer) (s : State B), Grow s (State.drawOrder n pool s).2 := by
  induction n with
  | zero => intro pool s; exact Grow.refl s
  | succ n ih =>
    intro pool s
    unfold State.drawOrder
    split
    · exact (grow_decide _ _ _).trans (grow_crash _)
    · exact (grow_decide _ _ _).trans (ih _ _)

theorem grow_wakeAll (ws : List Nat) : ∀ (s : State B) (p : Payload), Grow s (s.wakeAll p ws) := by
  induction ws with
  | nil => intro s p; exact Grow.refl s
  | cons w ws ih => intro s p; exact (grow_markReady _ _ _).trans (ih _ _)

theorem grow_wakeClosedAll (ws : List Nat) : ∀ (s : State B) (c : Nat), Grow s (s.wakeClosedAll c ws) := by
  induction ws with
  | nil => intro s c; exact Grow.refl s
  | cons w ws ih =>
    intro s c
    refine Grow.trans ?_ (ih _ _)
    unfold State.wakeClosed
    split
    · exact ((grow_clearArms _ _).trans (grow_win _ _ _ _)).trans (grow_cancel _ _ _)
    · exact grow_markReady _ _ _

theorem grow_doAwait (s : State B) (t u : Nat) : Grow s (s.doAwait t u) := by
  unfold State.doAwait
  split
  · exact grow_markReady _ _ _
  · split
    · exact (grow_note _ _).trans (grow_markReady _ _ _)
    · exact (grow_eq (s := s) (s' := { s with awaiters := upd s.awaiters u (s.awaiters u ++ [t]) }) rfl).trans (grow_park _ _ _)

/-- The ready list after a processed step: only an abort removes anything from it. -/
theorem process_ready (prioOf : B → Nat) (s : State B) (t : Nat) (st : Step B) :
    (∃ new, (s.process prioOf t st).ready = s.ready ++ new) ∨
    ∃ u new, st = .abort u ∧ (s.process prioOf t st).ready = s.ready.filter (· ≠ u) ++ new ∧
      (s.process prioOf t st).results u = some .aborted := by
  cases st with
  | yield => exact Or.inl (grow_markReady s t .nothing)
  | await u => exact Or.inl (grow_doAwait s t u)
  | abort u =>
    cases hr : s.results u with
    | some r =>
      have : s.doAbort u = s := by simp only [State.doAbort, hr]
      simp only [State.process, this]
      exact Or.inl (grow_markReady _ _ _)
    | none =>
      by_cases hd : s.stateOf u = none ∨ s.stateOf u = some .done
      · have : s.doAbort u = s := by
          rcases hd with hd | hd <;> simp only [State.doAbort, hr, hd]
        simp only [State.process, this]
        exact Or.inl (grow_markReady _ _ _)
      · have e : s.doAbort u = ((s.purge u).park u .done).complete u .aborted := by
          simp only [State.doAbort, hr]
          split
          · next h => exact absurd (Or.inl h) hd
          · next h => exact absurd (Or.inr h) hd
          · rfl
        refine Or.inr ⟨u, ?_⟩
        have g : Grow (s.purge u) (s.process prioOf t (.abort u)) := by
          simp only [State.process, e]
          refine ((grow_park (s.purge u) u .done).trans ?_).trans (grow_markReady _ _ _)
          exact Grow.trans (grow_eq (s' := { (s.purge u).park u .done with
            awaiters := upd ((s.purge u).park u .done).awaiters u []
            results := upd ((s.purge u).park u .done).results u (some .aborted) }) rfl) (grow_wakeAll _ _ _)
        obtain ⟨new, hn⟩ := g
        refine ⟨new, rfl, hn, ?_⟩
        simp only [State.process, e]
        have w := (ext_wakeAll (((s.purge u).park u .done).awaiters u) ({ (s.purge u).park u .done with
            awaiters := upd ((s.purge u).park u .done).awaiters u []
            results := upd ((s.purge u).park u .done).results u (some .aborted) } : State B) .nothing).mono.results u .aborted
            (upd_same _ _ _)
        exact (ext_markReady _ t .nothing).mono.results u .aborted w
  | close c => exact Or.inl (((grow_modChan s c _).trans (grow_wakeClosedAll _ _ _)).trans (grow_markReady _ t .nothing))
  | exit v =>
    simp only [State.process, State.complete]
    refine Or.inl (Grow.trans (grow_eq (s' := { s with mainResult := if s.isMain t then some v else s.mainResult }) rfl)
      (Grow.trans (grow_park _ t .done) ?_))
    generalize ({ s with mainResult := if s.isMain t then some v else s.mainResult } : State B).park t .done = s1
    exact Grow.trans (grow_eq (s' := { s1 with
          awaiters := upd s1.awaiters t []
          results := upd s1.results t (some (.completed v)) }) rfl) (grow_wakeAll _ _ _)
  | spawn b =>
    exact Or.inl (Grow.trans (⟨[s.nextId], rfl⟩ : Grow s (s.addTask b (prioOf b) false))
      ((grow_modTask _ t _).trans (grow_markReady _ t .nothing)))
  | newChan cap =>
    exact Or.inl (Grow.trans (grow_eq (s' := s.addChan (some (cap.getD s.cfg.defaultCap))) rfl)
      ((grow_modTask _ t _).trans (grow_markReady _ t .nothing)))
  | send c p => exact Or.inl (grow_doSend s t c p)
  | trySend c p => exact Or.inl (grow_doTrySend s t c p)
  | recv c => exact Or.inl (grow_doRecv s t c)
  | tryRecv c => exact Or.inl (grow_doTryRecv s t c)
  | sleep d =>
    refine Or.inl ?_
    simp only [State.process]
    split
    · exact Grow.trans (grow_eq (s' := { s with timers := s.timers ++ [⟨s.clock + d, t, none⟩] }) rfl) (grow_park _ _ _)
    · exact Grow.refl s
  | select arms => exact Or.inl (grow_doSelect s t arms)
  | ioPending => exact Or.inl (grow_park s t .blockedIo)

end Verif.Sched
