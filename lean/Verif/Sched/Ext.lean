import Verif.Sched.Reach
/-!
# What one scheduler step can change
-/

namespace Verif.Sched
variable {B : Type}

/-- A poll record. -/
def isPoll : Ev B → Bool
  | .poll _ _ _ _ => true
  | _ => false

/-- What every part of a step respects: facts stay, only non-poll events are logged, tasks keep their role,
results appear only as aborts. -/
structure Ext (s s' : State B) : Prop where
  mono : Mono s s'
  log : ∃ evs, s'.log = s.log ++ evs ∧ ∀ e ∈ evs, isPoll e = false
  slots : ∀ t sl, s.tasks t = some sl → ∃ sl', s'.tasks t = some sl' ∧ sl'.isMain = sl.isMain ∧
    sl'.priority = sl.priority
  back : ∀ t sl', s'.tasks t = some sl' → (∃ sl, s.tasks t = some sl ∧ sl'.isMain = sl.isMain) ∨ sl'.isMain = false
  main : s'.mainResult = s.mainResult
  results : ∀ t, s'.results t = s.results t ∨ (s.results t = none ∧ s'.results t = some .aborted)

theorem Ext.refl (s : State B) : Ext s s :=
  ⟨Mono.refl s, ⟨[], by simp, by simp⟩, fun _ sl h => ⟨sl, h, rfl, rfl⟩, fun _ sl h => Or.inl ⟨sl, h, rfl⟩, rfl,
    fun _ => Or.inl rfl⟩

theorem Ext.trans {a b c : State B} (h : Ext a b) (g : Ext b c) : Ext a c := by
  refine ⟨h.mono.trans g.mono, ?_, ?_, ?_, g.main.trans h.main, ?_⟩
  · obtain ⟨e1, l1, p1⟩ := h.log
    obtain ⟨e2, l2, p2⟩ := g.log
    refine ⟨e1 ++ e2, by rw [l2, l1, List.append_assoc], ?_⟩
    intro e he
    rcases List.mem_append.mp he with he | he
    · exact p1 e he
    · exact p2 e he
  · intro t sl hsl
    obtain ⟨sl1, a1, a2, a3⟩ := h.slots t sl hsl
    obtain ⟨sl2, b1, b2, b3⟩ := g.slots t sl1 a1
    exact ⟨sl2, b1, b2.trans a2, b3.trans a3⟩
  · intro t sl hsl
    rcases g.back t sl hsl with ⟨sl1, a1, a2⟩ | hf
    · rcases h.back t sl1 a1 with ⟨sl2, b1, b2⟩ | hf
      · exact Or.inl ⟨sl2, b1, a2.trans b2⟩
      · exact Or.inr (a2.trans hf)
    · exact Or.inr hf
  · intro t
    rcases g.results t with e1 | ⟨e1, e2⟩
    · rcases h.results t with d1 | ⟨d1, d2⟩
      · exact Or.inl (e1.trans d1)
      · exact Or.inr ⟨d1, e1.trans d2⟩
    · rcases h.results t with d1 | ⟨d1, d2⟩
      · exact Or.inr ⟨d1 ▸ e1, e2⟩
      · rw [d2] at e1; cases e1

/-- Changes of fields that do not matter here. -/
theorem ext_fields {s : State B} {s' : State B} (h1 : s'.cfg = s.cfg) (h2 : s'.tasks = s.tasks)
    (h3 : s'.chans = s.chans) (h4 : s'.clock = s.clock) (h5 : s'.mainResult = s.mainResult)
    (h6 : s'.results = s.results) (h7 : s'.log = s.log) : Ext s s' := by
  refine ⟨⟨h4, h1, fun u r h => by rw [h6]; exact h, fun c ch h => ⟨ch, by rw [h3]; exact h, rfl, id⟩,
    fun t sl h => ⟨sl, by rw [h2]; exact h⟩⟩, ⟨[], by simp [h7], by simp⟩,
    fun _ sl h => ⟨sl, by rw [h2]; exact h, rfl, rfl⟩, fun _ sl h => Or.inl ⟨sl, by rw [← h2]; exact h, rfl⟩, h5,
    fun t => Or.inl (by rw [h6])⟩

theorem ext_note (s : State B) {e : Ev B} (h : isPoll e = false) : Ext s (s.note e) :=
  ⟨note_mono s e, ⟨[e], rfl, by simpa using h⟩, fun _ sl h => ⟨sl, h, rfl, rfl⟩, fun _ sl h => Or.inl ⟨sl, h, rfl⟩, rfl,
    fun _ => Or.inl rfl⟩

theorem ext_crash (s : State B) : Ext s { s with crashed := true } := ext_fields rfl rfl rfl rfl rfl rfl rfl

theorem ext_modTask (s : State B) (t : Nat) (f : Slot B → Slot B) (h1 : ∀ sl, (f sl).isMain = sl.isMain)
    (h2 : ∀ sl, (f sl).priority = sl.priority) : Ext s (s.modTask t f) := by
  cases ht : s.tasks t with
  | none => simp only [State.modTask, ht]; exact ext_crash s
  | some sl =>
    refine ⟨modTask_mono ht f, ?_, ?_, ?_, ?_, ?_⟩ <;> rw [modTask_some ht]
    · exact ⟨[], by simp, by simp⟩
    · intro u slu hu
      by_cases hut : u = t
      · subst hut
        rw [ht] at hu; cases hu
        exact ⟨f sl, upd_same _ _ _, h1 sl, h2 sl⟩
      · exact ⟨slu, by rw [← hu]; exact upd_ne _ _ hut, rfl, rfl⟩
    · intro u slu hu
      by_cases hut : u = t
      · subst hut
        have e : some (f sl) = some slu := by rw [← hu]; exact (upd_same _ _ _).symm
        cases e
        exact Or.inl ⟨sl, ht, h1 sl⟩
      · exact Or.inl ⟨slu, by rw [← hu]; exact (upd_ne _ _ hut).symm, rfl⟩
    · intro t; exact Or.inl rfl

theorem ext_modChan (s : State B) (c : Nat) (f : Chan → Chan) (h1 : ∀ ch, (f ch).cap = ch.cap)
    (h2 : ∀ ch, ch.closed = true → (f ch).closed = true) : Ext s (s.modChan c f) := by
  cases hc : s.chans c with
  | none => simp only [State.modChan, hc]; exact ext_crash s
  | some ch =>
    refine ⟨modChan_mono hc f (h1 ch) (h2 ch), ?_, ?_, ?_, ?_, ?_⟩ <;> rw [modChan_some hc]
    · exact ⟨[], by simp, by simp⟩
    · intro u sl hu; exact ⟨sl, hu, rfl, rfl⟩
    · intro u sl hu; exact Or.inl ⟨sl, hu, rfl⟩
    · intro t; exact Or.inl rfl

theorem ext_markReady (s : State B) (t : Nat) (v : Payload) : Ext s (s.markReady t v) :=
  (ext_fields (s := s) (s' := { s with ready := s.ready ++ [t] }) rfl rfl rfl rfl rfl rfl rfl).trans
    (ext_modTask _ _ _ (by intro _; rfl) (by intro _; rfl))

theorem ext_win (s : State B) (t i : Nat) (v : Payload) : Ext s (s.win t i v) :=
  (ext_fields (s := s) (s' := { s with ready := s.ready ++ [t] }) rfl rfl rfl rfl rfl rfl rfl).trans
    (ext_modTask _ _ _ (by intro _; rfl) (by intro _; rfl))

theorem ext_park (s : State B) (t : Nat) (st : TState) : Ext s (s.park t st) :=
  ext_modTask _ _ _ (by intro _; rfl) (by intro _; rfl)

theorem ext_clearArms (s : State B) (t : Nat) : Ext s (s.clearArms t) :=
  ext_modTask _ _ _ (by intro _; rfl) (by intro _; rfl)

theorem ext_cancel (s : State B) (r : Nat) (k : Option Nat) : Ext s (s.cancel r k) :=
  ⟨cancel_mono s r k, ⟨[], by simp [State.cancel], by simp⟩, fun _ sl h => ⟨sl, h, rfl, rfl⟩,
    fun _ sl h => Or.inl ⟨sl, h, rfl⟩, rfl, fun _ => Or.inl rfl⟩

theorem ext_purge (s : State B) (u : Nat) : Ext s (s.purge u) :=
  ⟨purge_mono s u, ⟨[], by simp [State.purge], by simp⟩, fun _ sl h => ⟨sl, h, rfl, rfl⟩,
    fun _ sl h => Or.inl ⟨sl, h, rfl⟩, rfl, fun _ => Or.inl rfl⟩

theorem ext_decide (s : State B) (k : Kind) (n : Nat) : Ext s (s.decide k n).2 := by
  unfold State.decide
  split
  · exact ext_crash s
  · exact ext_fields rfl rfl rfl rfl rfl rfl rfl

theorem ext_deliver (s : State B) (r c : Nat) (v : Payload) : Ext s (s.deliver r c v) := by
  unfold State.deliver
  split
  · split
    · exact ext_crash s
    · exact (((ext_clearArms _ _).trans (ext_win _ _ _ _)).trans (ext_cancel _ _ _)).trans (ext_note _ rfl)
  · exact (ext_markReady _ _ _).trans (ext_note _ rfl)

theorem ext_refill (s : State B) (c : Nat) : Ext s (s.refill c) := by
  unfold State.refill
  split
  · split
    · exact Ext.refl s
    · exact ((ext_modChan _ _ _ (by intro _; rfl) (by intro _ h; exact h)).trans (ext_note _ rfl)).trans (ext_markReady _ _ _)
  · exact Ext.refl s

theorem ext_doSend (s : State B) (t c : Nat) (p : Payload) : Ext s (s.doSend t c p) := by
  unfold State.doSend
  split
  · exact ((((ext_modChan _ _ _ (by intro _; rfl) (by intro _ h; exact h)).trans (ext_note _ rfl)).trans (ext_note _ rfl)).trans
      (ext_deliver _ _ _ _)).trans (ext_markReady _ _ _)
  · split
    · exact (((ext_modChan _ _ _ (by intro _; rfl) (by intro _ h; exact h)).trans (ext_note _ rfl)).trans (ext_note _ rfl)).trans
        (ext_markReady _ _ _)
    · exact ((ext_modChan _ _ _ (by intro _; rfl) (by intro _ h; exact h)).trans (ext_note _ rfl)).trans (ext_park _ _ _)

theorem ext_doTrySend (s : State B) (t c : Nat) (p : Payload) : Ext s (s.doTrySend t c p) := by
  unfold State.doTrySend
  split
  · exact ((((ext_modChan _ _ _ (by intro _; rfl) (by intro _ h; exact h)).trans (ext_note _ rfl)).trans (ext_note _ rfl)).trans
      (ext_deliver _ _ _ _)).trans (ext_markReady _ _ _)
  · split
    · exact (((ext_modChan _ _ _ (by intro _; rfl) (by intro _ h; exact h)).trans (ext_note _ rfl)).trans (ext_note _ rfl)).trans
        (ext_markReady _ _ _)
    · exact ext_markReady _ _ _

theorem ext_takeFor {s s' : State B} {t c : Nat} (e : s.takeFor t c = some s') : Ext s s' := by
  unfold State.takeFor at e
  split at e
  · cases e
    exact (((ext_modChan _ _ _ (by intro _; rfl) (by intro _ h; exact h)).trans (ext_note _ rfl)).trans (ext_markReady _ _ _)).trans
      (ext_refill _ _)
  · split at e
    · cases e
      exact ((((ext_modChan _ _ _ (by intro _; rfl) (by intro _ h; exact h)).trans (ext_note _ rfl)).trans (ext_note _ rfl)).trans
        (ext_markReady _ _ _)).trans (ext_markReady _ _ _)
    · cases e

theorem ext_doRecv (s : State B) (t c : Nat) : Ext s (s.doRecv t c) := by
  unfold State.doRecv
  split
  · next e => exact ext_takeFor e
  · split
    · exact ext_markReady _ _ _
    · exact (ext_modChan _ _ _ (by intro _; rfl) (by intro _ h; exact h)).trans (ext_park _ _ _)

theorem ext_doTryRecv (s : State B) (t c : Nat) : Ext s (s.doTryRecv t c) := by
  unfold State.doTryRecv
  split
  · next e => exact ext_takeFor e
  · exact ext_markReady _ _ _

theorem ext_takeOne (s : State B) (t c : Nat) : Ext s (s.takeOne t c).2 := by
  unfold State.takeOne
  split
  · exact ((ext_modChan _ _ _ (by intro _; rfl) (by intro _ h; exact h)).trans (ext_note _ rfl)).trans (ext_refill _ _)
  · split
    · exact (((ext_modChan _ _ _ (by intro _; rfl) (by intro _ h; exact h)).trans (ext_note _ rfl)).trans (ext_note _ rfl)).trans
        (ext_markReady _ _ _)
    · exact Ext.refl s

theorem ext_registerAll (arms : List Arm) : ∀ (s : State B) (t i : Nat), Ext s (s.registerAll t i arms) := by
  induction arms with
  | nil => intro s t i; exact Ext.refl s
  | cons a as ih =>
    intro s t i
    refine Ext.trans ?_ (ih _ _ _)
    cases a with
    | recv c => exact ext_modChan _ _ _ (by intro _; rfl) (by intro _ h; exact h)
    | timeout d =>
      simp only [State.register]
      split
      · exact ext_fields rfl rfl rfl rfl rfl rfl rfl
      · exact ext_crash s

theorem ext_winNow (s : State B) (t : Nat) (arms : List Arm) (i : Nat) : Ext s (s.winNow t arms i) := by
  unfold State.winNow
  split
  · exact (ext_takeOne _ _ _).trans (ext_win _ _ _ _)
  · exact ext_crash s

theorem ext_doSelect (s : State B) (t : Nat) (arms : List Arm) : Ext s (s.doSelect t arms) := by
  unfold State.doSelect
  split
  · exact ext_crash s
  · split
    · exact (ext_registerAll _ _ _ _).trans (ext_modTask _ _ _ (by intro _; rfl) (by intro _; rfl))
    · split
      · refine Ext.trans ?_ (ext_crash _)
        unfold State.pickArm
        split
        · exact Ext.refl s
        · exact ext_decide _ _ _
      · refine Ext.trans ?_ (ext_winNow _ _ _ _)
        unfold State.pickArm
        split
        · exact Ext.refl s
        · exact ext_decide _ _ _

theorem ext_fireTimer (s : State B) (t : Nat) (a : Option Nat) : Ext s (s.fireTimer t a) := by
  unfold State.fireTimer
  split
  · split
    · split
      · exact ((ext_clearArms _ _).trans (ext_win _ _ _ _)).trans (ext_cancel _ _ _)
      · exact ext_win _ _ _ _
    · exact ext_markReady _ _ _
  · exact Ext.refl s

theorem ext_fireAll (es : List Timer) : ∀ (s : State B), Ext s (s.fireAll es) := by
  induction es with
  | nil => intro s; exact Ext.refl s
  | cons e es ih => intro s; exact (ext_fireTimer _ _ _).trans (ih _)

theorem ext_drawOrder (n : Nat) : ∀ (pool : List Timer) (s : State B), Ext s (State.drawOrder n pool s).2 := by
  induction n with
  | zero => intro pool s; exact Ext.refl s
  | succ n ih =>
    intro pool s
    unfold State.drawOrder
    split
    · exact (ext_decide _ _ _).trans (ext_crash _)
    · exact (ext_decide _ _ _).trans (ih _ _)

theorem ext_wakeAll (ws : List Nat) : ∀ (s : State B) (p : Payload), Ext s (s.wakeAll p ws) := by
  induction ws with
  | nil => intro s p; exact Ext.refl s
  | cons w ws ih => intro s p; exact (ext_markReady _ _ _).trans (ih _ _)

theorem ext_wakeClosedAll (ws : List Nat) : ∀ (s : State B) (c : Nat), Ext s (s.wakeClosedAll c ws) := by
  induction ws with
  | nil => intro s c; exact Ext.refl s
  | cons w ws ih =>
    intro s c
    refine Ext.trans ?_ (ih _ _)
    unfold State.wakeClosed
    split
    · exact ((ext_clearArms _ _).trans (ext_win _ _ _ _)).trans (ext_cancel _ _ _)
    · exact ext_markReady _ _ _

theorem ext_doAwait (s : State B) (t u : Nat) : Ext s (s.doAwait t u) := by
  unfold State.doAwait
  split
  · exact ext_markReady _ _ _
  · split
    · exact (ext_note _ rfl).trans (ext_markReady _ _ _)
    · exact (ext_fields (s := s) (s' := { s with awaiters := upd s.awaiters u (s.awaiters u ++ [t]) }) rfl rfl rfl rfl rfl rfl
        rfl).trans (ext_park _ _ _)

theorem ext_doAbort (s : State B) (u : Nat) : Ext s (s.doAbort u) := by
  unfold State.doAbort
  cases hr : s.results u with
  | some r => exact Ext.refl s
  | none =>
    have main : Ext s (((s.purge u).park u .done).complete u .aborted) := by
      have h1 : Ext s ((s.purge u).park u .done) := (ext_purge s u).trans (ext_park _ _ _)
      have hres : ((s.purge u).park u .done).results u = none := by
        rcases h1.results u with e | ⟨_, e⟩
        · rw [e]; exact hr
        · have : ((s.purge u).park u .done).results = s.results := by
            unfold State.park State.modTask; split <;> rfl
          rw [this]; exact hr
      refine h1.trans (Ext.trans ?_ (ext_wakeAll _ _ _))
      generalize (s.purge u).park u .done = s1 at *
      refine ⟨⟨rfl, rfl, ?_, fun _ ch h => ⟨ch, h, rfl, id⟩, fun _ sl h => ⟨sl, h⟩⟩, ⟨[], by simp, by simp⟩,
        fun _ sl h => ⟨sl, h, rfl, rfl⟩, fun _ sl h => Or.inl ⟨sl, h, rfl⟩, rfl, ?_⟩
      · intro k r h
        have : k ≠ u := by rintro rfl; rw [hres] at h; cases h
        show upd s1.results u _ k = _
        rw [upd_ne _ _ this]; exact h
      · intro k
        by_cases hk : k = u
        · subst hk; exact Or.inr ⟨hres, upd_same _ _ _⟩
        · exact Or.inl (upd_ne _ _ hk)
    simp only
    cases hst : s.stateOf u with
    | none => exact Ext.refl s
    | some ts => cases ts <;> first | exact main | exact Ext.refl s

theorem ext_addTask {s : State B} (h : s.tasks s.nextId = none) (b : B) (p : Nat) :
    Ext s (s.addTask b p false) := by
  refine ⟨⟨rfl, rfl, fun _ _ h => h, fun _ ch h => ⟨ch, h, rfl, id⟩, ?_⟩, ⟨[], by simp [State.addTask], by simp⟩, ?_, ?_, rfl,
    fun _ => Or.inl rfl⟩
  · intro t sl ht
    have : t ≠ s.nextId := by rintro rfl; rw [h] at ht; cases ht
    exact ⟨sl, by rw [← ht]; exact upd_ne _ _ this⟩
  · intro t sl ht
    have : t ≠ s.nextId := by rintro rfl; rw [h] at ht; cases ht
    exact ⟨sl, by rw [← ht]; exact upd_ne _ _ this, rfl, rfl⟩
  · intro t sl ht
    by_cases hn : t = s.nextId
    · subst hn
      have e : some { body := b, priority := p, isMain := false } = some sl := by
        rw [← ht]; exact (upd_same _ _ _).symm
      cases e
      exact Or.inr rfl
    · exact Or.inl ⟨sl, by rw [← ht]; exact (upd_ne _ _ hn).symm, rfl⟩

theorem ext_addChan {s : State B} (h : s.chans s.nextId = none) (cap : Option Nat) : Ext s (s.addChan cap) := by
  refine ⟨⟨rfl, rfl, fun _ _ h => h, ?_, fun _ sl h => ⟨sl, h⟩⟩, ⟨[], by simp [State.addChan], by simp⟩,
    fun _ sl h => ⟨sl, h, rfl, rfl⟩, fun _ sl h => Or.inl ⟨sl, h, rfl⟩, rfl, fun _ => Or.inl rfl⟩
  intro c ch hc
  have : c ≠ s.nextId := by rintro rfl; rw [h] at hc; cases hc
  exact ⟨ch, by rw [← hc]; exact upd_ne _ _ this, rfl, id⟩

theorem fresh_task {s : State B} (h : Core s) : s.tasks s.nextId = none := by
  cases ht : s.tasks s.nextId with
  | none => rfl
  | some sl => exact absurd (h.taskLt s.nextId (by simp [ht])) (Nat.lt_irrefl _)

theorem fresh_chan {s : State B} (h : Core s) : s.chans s.nextId = none := by
  cases ht : s.chans s.nextId with
  | none => rfl
  | some sl => exact absurd (h.chanLt s.nextId (by simp [ht])) (Nat.lt_irrefl _)

/-- Steps other than finishing. -/
theorem ext_process {s : State B} (prioOf : B → Nat) (t : Nat) (st : Step B) (hcore : Core s)
    (hne : ∀ v, st ≠ .exit v) : Ext s (s.process prioOf t st) := by
  cases st with
  | yield => exact ext_markReady _ _ _
  | await u => exact ext_doAwait _ _ _
  | abort u => exact (ext_doAbort _ _).trans (ext_markReady _ _ _)
  | close c =>
    exact ((ext_modChan _ _ _ (by intro _; rfl) (by intro _ _; rfl)).trans (ext_wakeClosedAll _ _ _)).trans (ext_markReady _ _ _)
  | exit v => exact absurd rfl (hne v)
  | spawn b =>
    exact ((ext_addTask (fresh_task hcore) _ _).trans (ext_modTask _ _ _ (by intro _; rfl) (by intro _; rfl))).trans
      (ext_markReady _ _ _)
  | newChan cap =>
    exact ((ext_addChan (fresh_chan hcore) _).trans (ext_modTask _ _ _ (by intro _; rfl) (by intro _; rfl))).trans
      (ext_markReady _ _ _)
  | send c p => exact ext_doSend _ _ _ _
  | trySend c p => exact ext_doTrySend _ _ _ _
  | recv c => exact ext_doRecv _ _ _
  | tryRecv c => exact ext_doTryRecv _ _ _
  | sleep d =>
    simp only [State.process]
    split
    · exact (ext_fields (s := s) (s' := { s with timers := s.timers ++ [⟨s.clock + d, t, none⟩] }) rfl rfl rfl rfl rfl rfl rfl).trans
        (ext_park _ _ _)
    · exact ext_crash s
  | select arms => exact ext_doSelect _ _ _
  | ioPending => exact ext_park _ _ _

/-- What finishing changes. -/
theorem exit_facts {s : State B} (prioOf : B → Nat) {t : Nat} {v : Payload} {sl : Slot B} (ht : s.tasks t = some sl)
    (hres : s.results t = none) :
    Mono s (s.process prioOf t (.exit v)) ∧ (s.process prioOf t (.exit v)).log = s.log ∧
    (s.process prioOf t (.exit v)).results = upd s.results t (some (.completed v)) ∧
    (s.process prioOf t (.exit v)).mainResult = (if s.isMain t then some v else s.mainResult) ∧
    (∀ u slu, s.tasks u = some slu → ∃ sl', (s.process prioOf t (.exit v)).tasks u = some sl' ∧ sl'.isMain = slu.isMain ∧
      sl'.priority = slu.priority) ∧
    (∀ u sl', (s.process prioOf t (.exit v)).tasks u = some sl' → (∃ sl, s.tasks u = some sl ∧ sl'.isMain = sl.isMain) ∨
      sl'.isMain = false) := by
  have hw := ext_wakeAll (s.awaiters t) ({ s with
      mainResult := if s.isMain t then some v else s.mainResult
      tasks := upd s.tasks t (some { sl with state := .done })
      awaiters := upd s.awaiters t []
      results := upd s.results t (some (.completed v)) } : State B) v
  have e : s.process prioOf t (.exit v) = ({ s with
      mainResult := if s.isMain t then some v else s.mainResult
      tasks := upd s.tasks t (some { sl with state := .done })
      awaiters := upd s.awaiters t []
      results := upd s.results t (some (.completed v)) } : State B).wakeAll v (s.awaiters t) := by
    simp only [State.process, State.complete, State.park, State.modTask, ht, Result.payload]
  rw [e]
  have hlog : ∀ (ws : List Nat) (s : State B) (p : Payload), (s.wakeAll p ws).log = s.log ∧
      (s.wakeAll p ws).results = s.results := by
    intro ws
    induction ws with
    | nil => intro s p; exact ⟨rfl, rfl⟩
    | cons w ws ih =>
      intro s p
      obtain ⟨i1, i2⟩ := ih (s.markReady w p) p
      refine ⟨i1.trans ?_, i2.trans ?_⟩ <;>
      · unfold State.markReady State.modTask; split <;> rfl
  refine ⟨Mono.trans ?_ hw.mono, (hlog _ _ _).1, (hlog _ _ _).2, hw.main, ?_, ?_⟩
  · refine ⟨rfl, rfl, ?_, fun _ ch h => ⟨ch, h, rfl, id⟩, ?_⟩
    · intro k r h
      have : k ≠ t := by rintro rfl; rw [hres] at h; cases h
      show upd s.results t _ k = _
      rw [upd_ne _ _ this]; exact h
    · intro k slk h
      by_cases hk : k = t
      · exact ⟨_, by rw [hk]; exact upd_same _ _ _⟩
      · exact ⟨slk, by rw [← h]; exact upd_ne _ _ hk⟩
  · intro u slu hu
    by_cases hk : u = t
    · subst hk
      rw [ht] at hu; cases hu
      exact hw.slots _ { sl with state := .done } (upd_same _ _ _)
    · exact hw.slots _ _ ((upd_ne _ _ hk).trans hu)
  · intro u sl' hu
    rcases hw.back u sl' hu with ⟨slu, a1, a2⟩ | hf
    · refine Or.inl ?_
      by_cases hk : u = t
      · subst hk
        have e : some { sl with state := .done } = some slu := by rw [← a1]; exact (upd_same _ _ _).symm
        cases e
        exact ⟨sl, ht, a2⟩
      · exact ⟨slu, by rw [← a1]; exact (upd_ne _ _ hk).symm, a2⟩
    · exact Or.inr hf

end Verif.Sched
