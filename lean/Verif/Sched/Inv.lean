import Verif.Sched.Lemmas2
/-!
# The scheduler invariant, and the channel operations
-/

namespace Verif.Sched
variable {B : Type}

/-- A channel is in order: bounded, receivers wait only on an empty open channel, senders only on a full
one. -/
structure ChanOk (ch : Chan) : Prop where
  bound : ∀ n, ch.cap = some n → ch.queue.length ≤ n
  recv : ch.receivers ≠ [] → ch.queue = [] ∧ ch.senders = [] ∧ ch.closed = false
  send : ch.senders ≠ [] → ch.hasRoom = false

/-- Task was not aborted. -/
def notAborted (s : State B) (x : Nat × Payload) : Bool := s.results x.1 ≠ some .aborted

/-- The books of one channel. -/
structure LedgerAt (na : Nat × Payload → Bool) (c : Nat) (log : List (Ev B)) (q : List Payload)
    (sn : List (Nat × Payload)) : Prop where
  values : (acceptedOn c log).map (·.2) = (gotOn c log).map (·.2) ++ q
  live : (sentOn c log).filter na = (acceptedOn c log ++ sn).filter na
  order : (acceptedOn c log ++ sn).Sublist (sentOn c log)

/-- The books of all channels. -/
def Ledger (s : State B) : Prop :=
  ∀ c, LedgerAt (notAborted s) c s.log (s.chan c).queue (s.chan c).senders

/-- Identifiers, timers and awaiters. -/
structure Core (s : State B) : Prop where
  taskLt : ∀ t, (s.tasks t).isSome → t < s.nextId
  chanLt : ∀ c, (s.chans c).isSome → c < s.nextId
  awDone : ∀ u, (s.results u).isSome → s.awaiters u = []
  awTask : ∀ u, s.awaiters u ≠ [] → (s.tasks u).isSome
  timers : ∀ e ∈ s.timers, s.clock ≤ e.fireAt

/-- The invariant between scheduler steps. -/
structure Inv (s : State B) : Prop where
  status : ∀ t, Status s t
  chans : ∀ c, ChanOk (s.chan c)
  ledger : Ledger s
  core : Core s

/-- The invariant while task `x` runs. -/
structure Pre (s : State B) (x : Nat) (st : Step B) : Prop where
  status : ∀ t, t ≠ x → Status s t
  run : Run s x st s.clock [] {}
  chans : ∀ c, ChanOk (s.chan c)
  ledger : Ledger s
  core : Core s

theorem Core.calm {s s' : State B} (h : Core s) (k : Calm s s') : Core s' where
  taskLt t ht := by rw [k.nextId]; exact h.taskLt t (by rw [← k.taskDom]; exact ht)
  chanLt c hc := by rw [k.nextId]; exact h.chanLt c (by rw [← (k.chans c).1]; exact hc)
  awDone u hu := by rw [k.awaiters]; exact h.awDone u (by rw [← k.results]; exact hu)
  awTask u hu := by rw [k.taskDom]; exact h.awTask u (by rw [← k.awaiters]; exact hu)
  timers e he := by rw [k.clock]; exact h.timers e (k.timers e he)

theorem ChanOk.calm {s s' : State B} {c : Nat} (h : ChanOk (s.chan c)) (k : Calm s s') : ChanOk (s'.chan c) := by
  obtain ⟨_, a2, a3, a4, a5, a6⟩ := k.chans c
  refine ⟨?_, ?_, ?_⟩
  · rw [a4, a2]; exact h.bound
  · intro hr
    have : (s.chan c).receivers ≠ [] := by
      intro h0
      rw [h0] at a6
      exact hr (List.subset_nil.mp a6)
    rw [a2, a3, a5]; exact h.recv this
  · rw [a3]
    intro hs
    have := h.send hs
    simp only [Chan.hasRoom, a4, a2] at this ⊢
    exact this

theorem modChan_chan {s : State B} {c : Nat} {ch : Chan} (h : s.chans c = some ch) (f : Chan → Chan) (k : Nat) :
    (s.modChan c f).chan k = if k = c then f ch else s.chan k := by
  rw [modChan_some h]
  by_cases hk : k = c <;> simp [State.chan, upd, hk]

/-- `Core` only looks at the domain of the channel map. -/
theorem Core.modChan {s : State B} {c : Nat} {ch : Chan} (h : Core s) (hc : s.chans c = some ch) (f : Chan → Chan) :
    Core (s.modChan c f) := by
  rw [modChan_some hc]
  refine ⟨h.taskLt, ?_, h.awDone, h.awTask, h.timers⟩
  intro k hk
  by_cases e : k = c
  · exact h.chanLt k (by rw [e, hc]; rfl)
  · exact h.chanLt k (by rw [← hk]; simp [upd, e])

theorem Loose.frame {s s' : State B} {r : Nat} {st : Step B} {clk : Nat} {sl : Slot B} (k : Same s s' r)
    (h : Loose s r st clk sl) : Loose s' r st clk sl :=
  ⟨k.task.trans h.slot, h.arms, h.ctx, k.poll.trans h.poll, k.since.trans h.since, k.res.trans h.res⟩

/-- A task found among the receivers of a channel is blocked on that channel. -/
theorem receiver_blocked {s : State B} {r c : Nat} (h : Status s r) (hm : r ∈ (s.chan c).receivers) :
    ∃ st clk sl, Loose s r st clk sl ∧ WaitsOn c st ∧ regOf s r = waitReg clk st ∧
      (s.chan c).receivers.count r = 1 := by
  have hpos : 0 < (regOf s r).recv c := List.count_pos_iff.mpr hm
  cases h with
  | absent ht hr => rw [hr] at hpos; exact absurd hpos (Nat.lt_irrefl 0)
  | ready sl ht hs hr => rw [hr] at hpos; exact absurd hpos (Nat.lt_irrefl 0)
  | done sl ht hs hr => rw [hr] at hpos; exact absurd hpos (Nat.lt_irrefl 0)
  | blocked sl st clk ht hl hs hr he hc hres ha hk =>
    rw [hr] at hpos
    refine ⟨st, clk, sl, ⟨ht, ha, hc, hl, he, hres⟩, waitsOn_of_reg (Nat.pos_iff_ne_zero.mp hpos), hr, ?_⟩
    have e : (s.chan c).receivers.count r = (waitReg clk st).recv c := by rw [← hr]; rfl
    rw [e]
    cases st with
    | recv c' =>
      simp only [waitReg] at hpos ⊢
      split
      · rfl
      · next h => simp [h] at hpos
    | select arms =>
      have := hk c
      simp only [waitReg] at hpos ⊢
      omega
    | _ => simp [waitReg] at hpos

/-- Dropping the first receiver of a channel. -/
theorem popReceiver {s : State B} {r c : Nat} {rs : List Nat} {ch : Chan} (hc : s.chans c = some ch)
    (hr : ch.receivers = r :: rs) (h : Status s r) :
    ∃ st clk sl, Loose (s.modChan c fun ch => { ch with receivers := rs }) r st clk sl ∧ WaitsOn c st ∧
      regOf (s.modChan c fun ch => { ch with receivers := rs }) r = dropRecv c (waitReg clk st) ∧
      ∀ t, t ≠ r → Same s (s.modChan c fun ch => { ch with receivers := rs }) t := by
  have hm : r ∈ (s.chan c).receivers := by rw [chan_some hc, hr]; simp
  obtain ⟨st, clk, sl, hl, hw, hreg, hone⟩ := receiver_blocked h hm
  refine ⟨st, clk, sl, ?_, hw, ?_, ?_⟩
  · rw [modChan_some hc]
    exact ⟨hl.slot, hl.arms, hl.ctx, hl.poll, hl.since, hl.res⟩
  · rw [modChan_reg hc, hreg]
    have h0 : rs.count r = 0 := by
      rw [chan_some hc, hr, List.count_cons_self] at hone
      omega
    have hs : ((waitReg clk st).send) c = (ch.senders.filter (·.1 = r)).map (·.2) := by
      rw [← hreg]; simp [regOf, chan_some hc]
    simp only [dropRecv, h0]
    rw [upd_self _ _ _ hs]
  · intro t ht
    refine modChan_same hc _ ?_ rfl
    rw [hr, List.count_cons_of_ne (Ne.symm ht)]

/-! ## Ledger entries -/

theorem LedgerAt.other {na : Nat × Payload → Bool} {c : Nat} {log ev : List (Ev B)} {q : List Payload}
    {sn : List (Nat × Payload)} (h : LedgerAt na c log q sn) (h1 : sentOn c ev = []) (h2 : acceptedOn c ev = [])
    (h3 : gotOn c ev = []) : LedgerAt na c (log ++ ev) q sn := by
  refine ⟨?_, ?_, ?_⟩
  · rw [acceptedOn_append, gotOn_append, h2, h3, List.append_nil, List.append_nil]; exact h.values
  · rw [sentOn_append, acceptedOn_append, h1, h2, List.append_nil, List.append_nil]; exact h.live
  · rw [sentOn_append, acceptedOn_append, h1, h2, List.append_nil, List.append_nil]; exact h.order

/-- One value sent, accepted and handed out while nothing was in the channel. -/
theorem LedgerAt.through {na : Nat × Payload → Bool} {c : Nat} {log : List (Ev B)} {x r : Nat} {p : Payload}
    (h : LedgerAt na c log [] []) :
    LedgerAt na c (log ++ [.sent c x p, .accepted c x p, .got c r p]) [] [] := by
  have e1 : sentOn c [(.sent c x p : Ev B), .accepted c x p, .got c r p] = [(x, p)] := by simp [sentOn]
  have e2 : acceptedOn c [(.sent c x p : Ev B), .accepted c x p, .got c r p] = [(x, p)] := by simp [acceptedOn]
  have e3 : gotOn c [(.sent c x p : Ev B), .accepted c x p, .got c r p] = [(r, p)] := by simp [gotOn]
  have hv := h.values
  have hl := h.live
  have ho := h.order
  simp only [List.append_nil] at hv hl ho
  refine ⟨?_, ?_, ?_⟩
  · rw [acceptedOn_append, gotOn_append, e2, e3]; simp [hv]
  · rw [sentOn_append, acceptedOn_append, e1, e2, List.filter_append, hl]; simp
  · rw [sentOn_append, acceptedOn_append, e1, e2, List.append_nil]
    exact ho.append (List.Sublist.refl _)

/-- One value sent and buffered while no sender was parked. -/
theorem LedgerAt.push {na : Nat × Payload → Bool} {c : Nat} {log : List (Ev B)} {x : Nat} {p : Payload}
    {q : List Payload} (h : LedgerAt na c log q []) :
    LedgerAt na c (log ++ [.sent c x p, .accepted c x p]) (q ++ [p]) [] := by
  have e1 : sentOn c [(.sent c x p : Ev B), .accepted c x p] = [(x, p)] := by simp [sentOn]
  have e2 : acceptedOn c [(.sent c x p : Ev B), .accepted c x p] = [(x, p)] := by simp [acceptedOn]
  have e3 : gotOn c [(.sent c x p : Ev B), .accepted c x p] = [] := by simp [gotOn]
  have hv := h.values
  have hl := h.live
  have ho := h.order
  simp only [List.append_nil] at hl ho
  refine ⟨?_, ?_, ?_⟩
  · rw [acceptedOn_append, gotOn_append, e2, e3]; simp [hv]
  · rw [sentOn_append, acceptedOn_append, e1, e2, List.filter_append, hl]; simp
  · rw [sentOn_append, acceptedOn_append, e1, e2, List.append_nil]
    exact ho.append (List.Sublist.refl _)

/-- One value sent and parked. -/
theorem LedgerAt.parked {na : Nat × Payload → Bool} {c : Nat} {log : List (Ev B)} {x : Nat} {p : Payload}
    {q : List Payload} {sn : List (Nat × Payload)} (h : LedgerAt na c log q sn) :
    LedgerAt na c (log ++ [.sent c x p]) q (sn ++ [(x, p)]) := by
  have e1 : sentOn c [(.sent c x p : Ev B)] = [(x, p)] := by simp [sentOn]
  have e2 : acceptedOn c [(.sent c x p : Ev B)] = [] := by simp [acceptedOn]
  have e3 : gotOn c [(.sent c x p : Ev B)] = [] := by simp [gotOn]
  refine ⟨?_, ?_, ?_⟩
  · rw [acceptedOn_append, gotOn_append, e2, e3, List.append_nil, List.append_nil]; exact h.values
  · rw [sentOn_append, acceptedOn_append, e1, e2, List.append_nil, List.filter_append, h.live, ← List.append_assoc,
      List.filter_append (l₁ := acceptedOn c log ++ sn)]
  · rw [sentOn_append, acceptedOn_append, e1, e2, List.append_nil, ← List.append_assoc]
    exact h.order.append (List.Sublist.refl _)

/-- One buffered value handed out. -/
theorem LedgerAt.pop {na : Nat × Payload → Bool} {c : Nat} {log : List (Ev B)} {x : Nat} {v : Payload}
    {q : List Payload} {sn : List (Nat × Payload)} (h : LedgerAt na c log (v :: q) sn) :
    LedgerAt na c (log ++ [.got c x v]) q sn := by
  have e1 : sentOn c [(.got c x v : Ev B)] = [] := by simp [sentOn]
  have e2 : acceptedOn c [(.got c x v : Ev B)] = [] := by simp [acceptedOn]
  have e3 : gotOn c [(.got c x v : Ev B)] = [(x, v)] := by simp [gotOn]
  refine ⟨?_, ?_, ?_⟩
  · rw [acceptedOn_append, gotOn_append, e2, e3, List.append_nil, h.values]; simp
  · rw [sentOn_append, acceptedOn_append, e1, e2, List.append_nil, List.append_nil]; exact h.live
  · rw [sentOn_append, acceptedOn_append, e1, e2, List.append_nil, List.append_nil]; exact h.order

/-- The first parked value is accepted into the buffer. -/
theorem LedgerAt.refill {na : Nat × Payload → Bool} {c : Nat} {log : List (Ev B)} {y : Nat} {p : Payload}
    {q : List Payload} {sn : List (Nat × Payload)} (h : LedgerAt na c log q ((y, p) :: sn)) :
    LedgerAt na c (log ++ [.accepted c y p]) (q ++ [p]) sn := by
  have e1 : sentOn c [(.accepted c y p : Ev B)] = [] := by simp [sentOn]
  have e2 : acceptedOn c [(.accepted c y p : Ev B)] = [(y, p)] := by simp [acceptedOn]
  have e3 : gotOn c [(.accepted c y p : Ev B)] = [] := by simp [gotOn]
  refine ⟨?_, ?_, ?_⟩
  · rw [acceptedOn_append, gotOn_append, e2, e3, List.append_nil, List.map_append, h.values]; simp
  · rw [sentOn_append, acceptedOn_append, e1, e2, List.append_nil, h.live]; simp
  · rw [sentOn_append, acceptedOn_append, e1, e2, List.append_nil]
    have := h.order
    simpa using this

/-- The first parked value is handed over directly. -/
theorem LedgerAt.handover {na : Nat × Payload → Bool} {c : Nat} {log : List (Ev B)} {x y : Nat} {p : Payload}
    {sn : List (Nat × Payload)} (h : LedgerAt na c log [] ((y, p) :: sn)) :
    LedgerAt na c (log ++ [.accepted c y p, .got c x p]) [] sn := by
  have h1 : LedgerAt na c (log ++ [.accepted c y p]) ([] ++ [p]) sn := h.refill
  have h2 := LedgerAt.pop (x := x) (v := p) (q := []) (by simpa using h1)
  simpa using h2

theorem other_log {c k : Nat} (hk : k ≠ c) (evs : List (Ev B))
    (h : ∀ e ∈ evs, (∃ t p, e = .sent c t p) ∨ (∃ t p, e = .accepted c t p) ∨ (∃ t v, e = .got c t v)) :
    sentOn k evs = [] ∧ acceptedOn k evs = [] ∧ gotOn k evs = [] := by
  refine ⟨?_, ?_, ?_⟩ <;>
  · simp only [sentOn, acceptedOn, gotOn, List.filterMap_eq_nil_iff]
    intro e he
    rcases h e he with ⟨t, p, rfl⟩ | ⟨t, p, rfl⟩ | ⟨t, v, rfl⟩ <;> simp [Ne.symm hk]

theorem Ledger.mk' {s s' : State B} {c : Nat} (h : Ledger s) (evs : List (Ev B))
    (hlog : s'.log = s.log ++ evs) (hres : s'.results = s.results)
    (hoth : ∀ k, k ≠ c → (s'.chan k).queue = (s.chan k).queue ∧ (s'.chan k).senders = (s.chan k).senders)
    (hev : ∀ e ∈ evs, (∃ t p, e = .sent c t p) ∨ (∃ t p, e = .accepted c t p) ∨ (∃ t v, e = .got c t v))
    (hc : LedgerAt (notAborted s) c (s.log ++ evs) (s'.chan c).queue (s'.chan c).senders) : Ledger s' := by
  intro k
  have hn : notAborted s' = notAborted s := by funext x; simp [notAborted, hres]
  rw [hn, hlog]
  by_cases hk : k = c
  · rw [hk]; exact hc
  · obtain ⟨a, b⟩ := hoth k hk
    obtain ⟨e1, e2, e3⟩ := other_log hk evs hev
    rw [a, b]
    exact (h k).other e1 e2 e3

theorem Ledger.quiet {s s' : State B} (h : Ledger s) (hlog : s'.log = s.log) (hres : s'.results = s.results)
    (hoth : ∀ k, (s'.chan k).queue = (s.chan k).queue ∧ (s'.chan k).senders = (s.chan k).senders) : Ledger s' := by
  intro k
  have hn : notAborted s' = notAborted s := by funext x; simp [notAborted, hres]
  rw [hn, hlog, (hoth k).1, (hoth k).2]
  exact h k

end Verif.Sched
