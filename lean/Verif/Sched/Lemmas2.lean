import Verif.Sched.Lemmas
/-!
# Channel operations and waking
-/

namespace Verif.Sched
variable {B : Type}

/-! ## Notes, channel updates, task updates -/

theorem note_mono (s : State B) (e : Ev B) : Mono s (s.note e) :=
  ⟨rfl, rfl, fun _ _ h => h, fun _ ch h => ⟨ch, h, rfl, id⟩, fun _ sl h => ⟨sl, h⟩⟩

/-- Events that concern task `t`. -/
def concerns (t : Nat) : Ev B → Prop
  | .poll t' _ _ _ => t' = t
  | .sent _ _ _ => False
  | .accepted _ t' _ => t' = t
  | .got _ t' _ => t' = t
  | .missing t' _ => t' = t

theorem note_same (s : State B) (e : Ev B) {t : Nat} (h : ¬ concerns t e) : Same s (s.note e) t := by
  refine ⟨rfl, rfl, ?_, ?_, rfl⟩
  · show lastPoll t (s.log ++ [e]) = _
    rw [lastPoll_snoc]
    cases e <;> simp_all [concerns]
  · show since t (s.log ++ [e]) = _
    rw [since_snoc]
    cases e <;> simp_all [concerns]

theorem modChan_mono {s : State B} {c : Nat} {ch : Chan} (h : s.chans c = some ch) (f : Chan → Chan)
    (h1 : (f ch).cap = ch.cap) (h2 : ch.closed = true → (f ch).closed = true) : Mono s (s.modChan c f) := by
  rw [modChan_some h]
  refine ⟨rfl, rfl, fun _ _ h => h, ?_, fun _ sl h => ⟨sl, h⟩⟩
  intro k ch' e
  by_cases hk : k = c
  · subst hk
    rw [h] at e; cases e
    exact ⟨_, upd_same _ _ _, h1, h2⟩
  · exact ⟨ch', (upd_ne _ _ hk).trans e, rfl, id⟩

theorem modChan_reg {s : State B} {c : Nat} {ch : Chan} (h : s.chans c = some ch) (f : Chan → Chan) (t : Nat) :
    regOf (s.modChan c f) t = { regOf s t with
      recv := upd (regOf s t).recv c ((f ch).receivers.count t)
      send := upd (regOf s t).send c (((f ch).senders.filter (·.1 = t)).map (·.2)) } := by
  rw [modChan_some h]
  simp only [regOf, Reg.mk.injEq, true_and]
  refine ⟨?_, ?_, trivial⟩
  · funext k
    by_cases hk : k = c <;> simp [State.chan, upd, hk]
  · funext k
    by_cases hk : k = c <;> simp [State.chan, upd, hk]

theorem upd_self {A : Type} (f : Nat → A) (k : Nat) (v : A) (h : f k = v) : upd f k v = f := by
  funext x
  by_cases hx : x = k <;> simp [upd, hx, h]

theorem modChan_same {s : State B} {c : Nat} {ch : Chan} (h : s.chans c = some ch) (f : Chan → Chan) {t : Nat}
    (h1 : (f ch).receivers.count t = ch.receivers.count t)
    (h2 : (f ch).senders.filter (·.1 = t) = ch.senders.filter (·.1 = t)) : Same s (s.modChan c f) t := by
  refine ⟨by rw [modChan_some h], ?_, by rw [modChan_some h], by rw [modChan_some h], by rw [modChan_some h]⟩
  rw [modChan_reg h, h1, h2, upd_self, upd_self]
  · simp [regOf, chan_some h]
  · simp [regOf, chan_some h]

theorem modTask_mono {s : State B} {r : Nat} {sl : Slot B} (h : s.tasks r = some sl) (f : Slot B → Slot B) :
    Mono s (s.modTask r f) := by
  rw [modTask_some h]
  refine ⟨rfl, rfl, fun _ _ h => h, fun _ ch h => ⟨ch, h, rfl, id⟩, ?_⟩
  intro u sl' e
  by_cases hu : u = r
  · exact ⟨_, by rw [hu]; exact upd_same _ _ _⟩
  · exact ⟨sl', by rw [← e]; exact upd_ne _ _ hu⟩

theorem modTask_same {s : State B} {r : Nat} {sl : Slot B} (h : s.tasks r = some sl) (f : Slot B → Slot B)
    {t : Nat} (ht : t ≠ r) : Same s (s.modTask r f) t := by
  rw [modTask_some h]
  exact ⟨upd_ne _ _ ht, rfl, rfl, rfl, rfl⟩

/-! ## Cancelling -/

theorem cancel_mono (s : State B) (r : Nat) (keep : Option Nat) : Mono s (s.cancel r keep) := by
  refine ⟨rfl, rfl, fun _ _ h => h, ?_, fun _ sl h => ⟨sl, h⟩⟩
  intro c ch e
  by_cases hk : some c = keep
  · exact ⟨ch, by simp [State.cancel, hk, e], rfl, id⟩
  · exact ⟨{ ch with receivers := ch.receivers.filter (· ≠ r) }, by simp [State.cancel, hk, e], rfl, id⟩

theorem cancel_receivers (s : State B) (r : Nat) (keep : Option Nat) (c : Nat) :
    ((s.cancel r keep).chan c).receivers =
      if some c = keep then (s.chan c).receivers else (s.chan c).receivers.filter (· ≠ r) := by
  by_cases hk : some c = keep
  · simp [State.cancel, State.chan, hk]
  · simp only [State.cancel, State.chan, hk, if_false]
    cases s.chans c <;> simp

theorem cancel_senders (s : State B) (r : Nat) (keep : Option Nat) (c : Nat) :
    ((s.cancel r keep).chan c).senders = (s.chan c).senders := by
  by_cases hk : some c = keep
  · simp [State.cancel, State.chan, hk]
  · simp only [State.cancel, State.chan, hk, if_false]
    cases s.chans c <;> simp

theorem count_filter_ne {l : List Nat} {t r : Nat} (h : t ≠ r) : (l.filter (· ≠ r)).count t = l.count t := by
  rw [List.count_filter]
  simpa using h

theorem count_filter_self (l : List Nat) (r : Nat) : (l.filter (· ≠ r)).count r = 0 := by
  rw [List.count_eq_zero]
  simp

theorem filter_filter_ne {A : Type} (l : List A) (g : A → Nat) {t r : Nat} (h : t ≠ r) :
    (l.filter (fun e => g e ≠ r)).filter (fun e => g e = t) = l.filter (fun e => g e = t) := by
  rw [List.filter_filter]
  apply List.filter_congr
  intro e _
  by_cases he : g e = t
  · simp [he, h]
  · simp [he]

theorem filter_filter_self {A : Type} (l : List A) (g : A → Nat) (r : Nat) :
    (l.filter (fun e => g e ≠ r)).filter (fun e => g e = r) = [] := by
  rw [List.filter_filter, List.filter_eq_nil_iff]
  intro e _
  by_cases he : g e = r <;> simp [he]

theorem cancel_reg_ne (s : State B) {r t : Nat} (keep : Option Nat) (h : t ≠ r) :
    regOf (s.cancel r keep) t = regOf s t := by
  simp only [regOf, Reg.mk.injEq]
  refine ⟨rfl, ?_, ?_, ?_, rfl⟩
  · funext c
    rw [cancel_receivers]
    split
    · rfl
    · exact count_filter_ne h
  · funext c
    rw [cancel_senders]
  · show ((s.timers.filter (fun e => e.tid ≠ r)).filter _).map _ = _
    rw [filter_filter_ne _ _ h]

theorem cancel_reg_self (s : State B) (r : Nat) (keep : Option Nat) :
    regOf (s.cancel r keep) r = { regOf s r with
      recv := fun c => if some c = keep then (regOf s r).recv c else 0
      timers := [] } := by
  simp only [regOf, Reg.mk.injEq]
  refine ⟨rfl, ?_, ?_, ?_, rfl⟩
  · funext c
    rw [cancel_receivers]
    split
    · rfl
    · exact count_filter_self _ _
  · funext c
    rw [cancel_senders]
  · show ((s.timers.filter (fun e => e.tid ≠ r)).filter _).map _ = _
    rw [filter_filter_self]; rfl

theorem cancel_same (s : State B) {r t : Nat} (keep : Option Nat) (h : t ≠ r) : Same s (s.cancel r keep) t :=
  ⟨rfl, cancel_reg_ne s keep h, rfl, rfl, rfl⟩

/-! ## What waking one task leaves alone -/

/-- A change that only wakes: everything but tasks, ready list, receivers, timers and log is kept. -/
structure Calm (s s' : State B) : Prop where
  mono : Mono s s'
  nextId : s'.nextId = s.nextId
  results : s'.results = s.results
  awaiters : s'.awaiters = s.awaiters
  clock : s'.clock = s.clock
  crashed : s'.crashed = s.crashed
  main : s'.mainResult = s.mainResult
  chooser : s'.chooser = s.chooser
  timers : ∀ e ∈ s'.timers, e ∈ s.timers
  taskDom : ∀ t, (s'.tasks t).isSome = (s.tasks t).isSome
  chans : ∀ c, (s'.chans c).isSome = (s.chans c).isSome ∧ (s'.chan c).queue = (s.chan c).queue ∧
    (s'.chan c).senders = (s.chan c).senders ∧ (s'.chan c).cap = (s.chan c).cap ∧
    (s'.chan c).closed = (s.chan c).closed ∧ (s'.chan c).receivers ⊆ (s.chan c).receivers

theorem Calm.refl (s : State B) : Calm s s :=
  ⟨Mono.refl s, rfl, rfl, rfl, rfl, rfl, rfl, rfl, fun _ h => h, fun _ => rfl,
    fun _ => ⟨rfl, rfl, rfl, rfl, rfl, fun _ h => h⟩⟩

theorem Calm.trans {a b c : State B} (h : Calm a b) (g : Calm b c) : Calm a c where
  mono := h.mono.trans g.mono
  nextId := g.nextId.trans h.nextId
  results := g.results.trans h.results
  awaiters := g.awaiters.trans h.awaiters
  clock := g.clock.trans h.clock
  crashed := g.crashed.trans h.crashed
  main := g.main.trans h.main
  chooser := g.chooser.trans h.chooser
  timers e he := h.timers e (g.timers e he)
  taskDom t := (g.taskDom t).trans (h.taskDom t)
  chans k := by
    obtain ⟨a1, a2, a3, a4, a5, a6⟩ := h.chans k
    obtain ⟨b1, b2, b3, b4, b5, b6⟩ := g.chans k
    exact ⟨b1.trans a1, b2.trans a2, b3.trans a3, b4.trans a4, b5.trans a5, fun x hx => a6 (b6 hx)⟩

theorem markReady_calm {s : State B} {t : Nat} {sl : Slot B} (h : s.tasks t = some sl) (v : Payload) :
    Calm s (s.markReady t v) := by
  have hm := markReady_mono h v
  rw [markReady_some h] at hm ⊢
  refine ⟨hm, rfl, rfl, rfl, rfl, rfl, rfl, rfl, fun _ h => h, ?_, fun _ => ⟨rfl, rfl, rfl, rfl, rfl, fun _ h => h⟩⟩
  intro u
  by_cases hu : u = t <;> simp [upd, hu, h]

theorem win_mono {s : State B} {t : Nat} {sl : Slot B} (h : s.tasks t = some sl) (i : Nat) (v : Payload) :
    Mono s (s.win t i v) := by
  rw [win_some h]
  refine ⟨rfl, rfl, fun _ _ h => h, fun _ ch h => ⟨ch, h, rfl, id⟩, ?_⟩
  intro u sl' e
  by_cases hu : u = t
  · exact ⟨_, by rw [hu]; exact upd_same _ _ _⟩
  · exact ⟨sl', by rw [← e]; exact upd_ne _ _ hu⟩

theorem win_calm {s : State B} {t : Nat} {sl : Slot B} (h : s.tasks t = some sl) (i : Nat) (v : Payload) :
    Calm s (s.win t i v) := by
  have hm := win_mono h i v
  rw [win_some h] at hm ⊢
  refine ⟨hm, rfl, rfl, rfl, rfl, rfl, rfl, rfl, fun _ h => h, ?_, fun _ => ⟨rfl, rfl, rfl, rfl, rfl, fun _ h => h⟩⟩
  intro u
  by_cases hu : u = t <;> simp [upd, hu, h]

theorem modTask_calm {s : State B} {t : Nat} {sl : Slot B} (h : s.tasks t = some sl) (f : Slot B → Slot B) :
    Calm s (s.modTask t f) := by
  have hm := modTask_mono h f
  rw [modTask_some h] at hm ⊢
  refine ⟨hm, rfl, rfl, rfl, rfl, rfl, rfl, rfl, fun _ h => h, ?_, fun _ => ⟨rfl, rfl, rfl, rfl, rfl, fun _ h => h⟩⟩
  intro u
  by_cases hu : u = t <;> simp [upd, hu, h]

theorem note_calm (s : State B) (e : Ev B) : Calm s (s.note e) :=
  ⟨note_mono s e, rfl, rfl, rfl, rfl, rfl, rfl, rfl, fun _ h => h, fun _ => rfl,
    fun _ => ⟨rfl, rfl, rfl, rfl, rfl, fun _ h => h⟩⟩

theorem cancel_calm (s : State B) (r : Nat) (keep : Option Nat) : Calm s (s.cancel r keep) := by
  refine ⟨cancel_mono s r keep, rfl, rfl, rfl, rfl, rfl, rfl, rfl, ?_, fun _ => rfl, ?_⟩
  · intro e he
    exact (List.mem_filter.mp he).1
  · intro c
    by_cases hk : some c = keep
    · simp [State.cancel, State.chan, hk]
    · simp only [State.cancel, State.chan, hk, if_false]
      cases s.chans c with
      | none => simp
      | some ch =>
        simp only [Option.map_some, Option.isSome_some, Option.getD_some, true_and]
        exact fun x hx => (List.mem_filter.mp hx).1

theorem clearArms_calm {s : State B} {t : Nat} {sl : Slot B} (h : s.tasks t = some sl) :
    Calm s (s.clearArms t) := modTask_calm h _

theorem clearArms_same {s : State B} {r : Nat} {sl : Slot B} (h : s.tasks r = some sl) {t : Nat} (ht : t ≠ r) :
    Same s (s.clearArms r) t := modTask_same h _ ht

theorem win_same {s : State B} {r : Nat} {sl : Slot B} (h : s.tasks r = some sl) (i : Nat) (v : Payload) {t : Nat}
    (ht : t ≠ r) : Same s (s.win r i v) t := by
  rw [win_some h]
  refine ⟨upd_ne _ _ ht, ?_, rfl, rfl, rfl⟩
  simp only [regOf, State.chan, Reg.mk.injEq, and_true]
  simp [List.count_append, List.count_singleton, ht.symm]

/-! ## Waking a task blocked in a select -/

/-- A task blocked by `st`, out of the books except for what a select still holds elsewhere; `regOf` is
what is left of its registrations. -/
structure Loose (s : State B) (r : Nat) (st : Step B) (clk : Nat) (sl : Slot B) : Prop where
  slot : s.tasks r = some sl
  arms : sl.selectArms = armsFor st
  ctx : sl.ctx = {}
  poll : lastPoll r s.log = some (st, clk)
  since : since r s.log = []
  res : s.results r = none

/-- `clear; win; cancel` on a task waiting in a select. -/
theorem selectWake {s : State B} {r : Nat} {arms : List Arm} {clk : Nat} {sl : Slot B} {i : Nat} {v : Payload}
    {keep : Option Nat} (h : Loose s r (.select arms) clk sl)
    (hready : (regOf s r).ready = 0) (hrecv : ∀ c, some c = keep → (regOf s r).recv c = 0)
    (hsend : (regOf s r).send = fun _ => []) (haw : (regOf s r).awaits = fun _ => 0) :
    let s' := ((s.clearArms r).win r i v).cancel r keep
    Calm s s' ∧ (∀ t, t ≠ r → Same s s' t) ∧ s'.log = s.log ∧ regOf s' r = { ready := 1 } ∧
    s'.results r = none ∧
    ∃ sl', s'.tasks r = some sl' ∧ sl'.state = .ready ∧ sl'.selectArms = none ∧
      sl'.ctx = { resumed := v, selected := some i } := by
  intro s'
  have h1 : (s.clearArms r).tasks r = some { sl with selectArms := none } := by
    rw [State.clearArms, modTask_some h.slot]; exact upd_same _ _ _
  have hw := win_some h1 i v
  have hsame : ∀ t, t ≠ r → Same s s' t := by
    intro t ht
    exact (clearArms_same h.slot ht).trans ((win_same h1 i v ht).trans (cancel_same _ _ ht))
  have hreg : regOf ((s.clearArms r).win r i v) r = { regOf s r with ready := (regOf s r).ready + 1 } := by
    rw [hw]
    rw [State.clearArms, modTask_some h.slot]
    simp [regOf, State.chan, List.count_append]
  refine ⟨(clearArms_calm h.slot).trans ((win_calm h1 i v).trans (cancel_calm _ _ _)), hsame, ?_, ?_, ?_, ?_⟩
  · show ((s.clearArms r).win r i v).log = s.log
    rw [hw, State.clearArms, modTask_some h.slot]
  · show regOf (State.cancel _ r keep) r = _
    rw [cancel_reg_self, hreg]
    simp only [hready, hsend, haw, Reg.mk.injEq, and_true, true_and]
    funext c
    split
    · next hc => exact hrecv c hc
    · rfl
  · show ((s.clearArms r).win r i v).results r = none
    rw [hw, State.clearArms, modTask_some h.slot]
    exact h.res
  · refine ⟨{ { sl with selectArms := none } with resume := v, selectedArm := some i, state := .ready }, ?_, rfl, rfl, ?_⟩
    · show ((s.clearArms r).win r i v).tasks r = _
      rw [hw]; exact upd_same _ _ _
    · have := h.ctx
      simp only [Slot.ctx, Ctx.mk.injEq] at this ⊢
      exact ⟨trivial, trivial, this.2.2.1, this.2.2.2⟩

/-- The registration a blocked task keeps after channel `c` dropped it. -/
def dropRecv (c : Nat) (g : Reg) : Reg := { g with recv := upd g.recv c 0 }

theorem armIndex_some {arms : List Arm} {c : Nat} (h : .recv c ∈ arms) :
    ∃ i, State.armIndex arms c = some i ∧ arms[i]? = some (.recv c) := by
  unfold State.armIndex
  cases hf : arms.findIdx? (fun a => decide (a = .recv c)) with
  | none =>
    rw [List.findIdx?_eq_none_iff] at hf
    have := hf _ h
    simp at this
  | some i =>
    rw [List.findIdx?_eq_some_iff_getElem] at hf
    obtain ⟨hi, hp, _⟩ := hf
    refine ⟨i, rfl, ?_⟩
    rw [List.getElem?_eq_getElem hi]
    simpa using hp

/-- A task blocked on receiving from `c`. -/
def WaitsOn (c : Nat) : Step B → Prop
  | .recv c' => c' = c
  | .select arms => .recv c ∈ arms
  | _ => False

theorem waitsOn_of_reg {st : Step B} {clk c : Nat} (h : (waitReg clk st).recv c ≠ 0) : WaitsOn c st := by
  cases st with
  | recv c' =>
    simp only [waitReg] at h
    by_cases hc : c = c'
    · exact hc.symm
    · simp [hc] at h
  | select arms =>
    simp only [waitReg] at h
    exact List.count_pos_iff.mp (Nat.pos_of_ne_zero h)
  | _ => simp [waitReg] at h

/-- Handing value `v` to a receiver that channel `c` has already dropped. -/
theorem deliver_ok {s : State B} {r c : Nat} {st : Step B} {clk : Nat} {sl : Slot B} {v : Payload}
    (h : Loose s r st clk sl) (hw : WaitsOn c st) (hreg : regOf s r = dropRecv c (waitReg clk st)) :
    Calm s (s.deliver r c v) ∧ (∀ t, t ≠ r → Same s (s.deliver r c v) t) ∧ Status (s.deliver r c v) r ∧
    (s.deliver r c v).log = s.log ++ [.got c r v] := by
  cases st with
  | recv c' =>
    cases (show c' = c from hw)
    have harms : s.armsOf r = none := by simp [State.armsOf, h.slot, h.arms, armsFor]
    have hd : s.deliver r c v = (s.markReady r v).note (.got c r v) := by simp [State.deliver, harms]
    have hz : regOf s r = {} := by
      rw [hreg, dropRecv]
      simp only [waitReg, Reg.mk.injEq, and_true, true_and]
      funext k
      by_cases hk : k = c <;> simp [upd, hk]
    rw [hd]
    have e := markReady_some h.slot v
    refine ⟨(markReady_calm h.slot v).trans (note_calm _ _), ?_, ?_, ?_⟩
    · intro t ht
      exact (markReady_same h.slot v ht).trans (note_same _ _ (by simpa [concerns] using Ne.symm ht))
    · refine .ready { sl with resume := v, state := .ready } ?_ rfl ?_ h.arms ?_ ?_
      · show (s.markReady r v).tasks r = _
        rw [e]; exact upd_same _ _ _
      · exact markReady_reg h.slot v hz
      · show (s.markReady r v).results r = none
        rw [e]; exact h.res
      · have hl : lastPoll r ((s.markReady r v).note (.got c r v)).log = some (.recv c, clk) := by
          show lastPoll r (_ ++ [_]) = _
          rw [lastPoll_snoc, e]; exact h.poll
        have hs : since r ((s.markReady r v).note (.got c r v)).log = [.got c r v] := by
          show since r (_ ++ [_]) = _
          rw [since_snoc, e]
          simp only [if_true]
          rw [h.since]; rfl
        simp only [Resumable, hl, hs]
        refine Or.inl ⟨v, rfl, ?_⟩
        have := h.ctx
        simp only [Slot.ctx, Ctx.mk.injEq] at this ⊢
        exact ⟨trivial, this.2⟩
    · show (s.markReady r v).log ++ [_] = _
      rw [e]
  | select arms =>
    have harms : s.armsOf r = some arms := by simp [State.armsOf, h.slot, h.arms, armsFor]
    obtain ⟨i, hi, hget⟩ := armIndex_some (show Arm.recv c ∈ arms from hw)
    have hd : s.deliver r c v =
        (((s.clearArms r).win r i v).cancel r (some c)).note (.got c r v) := by
      simp [State.deliver, harms, hi]
    obtain ⟨k1, k2, k3, k4, k5, sl', k6, k7, k8, k9⟩ := selectWake (i := i) (v := v) (keep := some c) h
      (by rw [hreg]; rfl)
      (by intro k hk; cases hk; rw [hreg]; simp [dropRecv, upd]) (by rw [hreg]; rfl) (by rw [hreg]; rfl)
    rw [hd]
    refine ⟨k1.trans (note_calm _ _), ?_, ?_, ?_⟩
    · intro t ht
      exact (k2 t ht).trans (note_same _ _ (by simpa [concerns] using Ne.symm ht))
    · refine .ready sl' k6 k7 k4 k8 k5 ?_
      have hl : lastPoll r ((((s.clearArms r).win r i v).cancel r (some c)).note (.got c r v)).log
          = some (.select arms, clk) := by
        show lastPoll r (_ ++ [_]) = _
        rw [lastPoll_snoc, k3]; exact h.poll
      have hs : since r ((((s.clearArms r).win r i v).cancel r (some c)).note (.got c r v)).log
          = [.got c r v] := by
        show since r (_ ++ [_]) = _
        rw [since_snoc, k3]
        simp only [if_true]
        rw [h.since]; rfl
      simp only [Resumable, hl, hs]
      exact ⟨i, Or.inl ⟨c, hget, Or.inl ⟨v, rfl, k9⟩⟩⟩
    · show State.log _ ++ [_] = _
      rw [k3]
  | _ => exact absurd hw (by simp [WaitsOn])

/-- Waking a receiver that a closing channel `c` has already dropped. -/
theorem wakeClosed_ok {s : State B} {r c : Nat} {st : Step B} {clk : Nat} {sl : Slot B}
    (h : Loose s r st clk sl) (hw : WaitsOn c st) (hreg : regOf s r = dropRecv c (waitReg clk st))
    (hc : closedIn s c) :
    Calm s (s.wakeClosed r c) ∧ (∀ t, t ≠ r → Same s (s.wakeClosed r c) t) ∧ Status (s.wakeClosed r c) r ∧
    (s.wakeClosed r c).log = s.log := by
  cases st with
  | recv c' =>
    cases (show c' = c from hw)
    have harms : s.armsOf r = none := by simp [State.armsOf, h.slot, h.arms, armsFor]
    have hd : s.wakeClosed r c = s.markReady r .nothing := by simp [State.wakeClosed, harms]
    have hz : regOf s r = {} := by
      rw [hreg, dropRecv]
      simp only [waitReg, Reg.mk.injEq, and_true, true_and]
      funext k
      by_cases hk : k = c <;> simp [upd, hk]
    rw [hd]
    have e := markReady_some h.slot .nothing
    refine ⟨markReady_calm h.slot _, fun t ht => markReady_same h.slot _ ht, ?_, by rw [e]⟩
    refine markReady_status h.slot _ hz h.arms h.res h.poll ?_
    rw [h.since]
    refine Or.inr ⟨rfl, ?_, hc⟩
    rw [h.ctx]
  | select arms =>
    have harms : s.armsOf r = some arms := by simp [State.armsOf, h.slot, h.arms, armsFor]
    obtain ⟨i, hi, hget⟩ := armIndex_some (show Arm.recv c ∈ arms from hw)
    have hd : s.wakeClosed r c = ((s.clearArms r).win r i .nothing).cancel r (some c) := by
      simp [State.wakeClosed, harms, hi]
    obtain ⟨k1, k2, k3, k4, k5, sl', k6, k7, k8, k9⟩ := selectWake (i := i) (v := .nothing) (keep := some c) h
      (by rw [hreg]; rfl)
      (by intro k hk; cases hk; rw [hreg]; simp [dropRecv, upd]) (by rw [hreg]; rfl) (by rw [hreg]; rfl)
    rw [hd]
    refine ⟨k1, k2, ?_, k3⟩
    refine .ready sl' k6 k7 k4 k8 k5 ?_
    simp only [Resumable, k3, h.poll, h.since]
    exact ⟨i, Or.inl ⟨c, hget, Or.inr ⟨rfl, k9, hc.mono k1.mono⟩⟩⟩
  | _ => exact absurd hw (by simp [WaitsOn])

end Verif.Sched
