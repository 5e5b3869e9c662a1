import Verif.Sched.Ops
/-!
# Every step preserves the invariant: receives
-/

namespace Verif.Sched
variable {B : Type}

/-- Dropping the first parked sender of a channel. -/
theorem popSender {s : State B} {y c : Nat} {p : Payload} {rest : List (Nat × Payload)} {ch : Chan}
    (hc : s.chans c = some ch) (hs : ch.senders = (y, p) :: rest) (h : Status s y) (f : Chan → Chan)
    (hf1 : (f ch).senders = rest) (hf2 : (f ch).receivers = ch.receivers) :
    ∃ clk sl, Loose (s.modChan c f) y (.send c p) clk sl ∧ regOf (s.modChan c f) y = {} ∧
      ∀ t, t ≠ y → Same s (s.modChan c f) t := by
  have hmem : (regOf s y).send c = p :: ((rest.filter (·.1 = y)).map (·.2)) := by
    simp [regOf, chan_some hc, hs]
  have hoth : ∀ t, t ≠ y → Same s (s.modChan c f) t := by
    intro t ht
    refine modChan_same hc _ (by rw [hf2]) ?_
    rw [hf1, hs, List.filter_cons]
    simp [Ne.symm ht]
  cases h with
  | absent ht hr => rw [hr] at hmem; cases hmem
  | ready sl ht hs' hr => rw [hr] at hmem; cases hmem
  | done sl ht hs' hr => rw [hr] at hmem; cases hmem
  | blocked sl st clk ht hl hs' hr he hcx hres ha hk =>
    rw [hr] at hmem
    cases st with
    | send c' p' =>
      simp only [waitReg] at hmem
      by_cases hcc : c = c'
      · subst hcc
        simp only [if_true, List.cons.injEq] at hmem
        obtain ⟨rfl, hrest⟩ := hmem
        refine ⟨clk, sl, ?_, ?_, hoth⟩
        · rw [modChan_some hc]
          exact ⟨ht, ha, hcx, hl, he, hres⟩
        · rw [modChan_reg hc, hr, hf1, hf2]
          have hrc : ch.receivers.count y = 0 := by
            have : (regOf s y).recv c = 0 := by rw [hr]; rfl
            simpa [regOf, chan_some hc] using this
          simp only [waitReg, hrc, ← hrest, Reg.mk.injEq, true_and, and_true]
          refine ⟨?_, ?_⟩ <;>
          · funext k
            by_cases hk' : k = c <;> simp [upd, hk']
      · simp [hcc] at hmem
    | _ => simp [waitReg] at hmem

/-- A parked sender's value is taken and the sender woken. -/
theorem wakeSender {s : State B} {y c : Nat} {p : Payload} {rest : List (Nat × Payload)} {ch : Chan}
    (hc : s.chans c = some ch) (hs : ch.senders = (y, p) :: rest) (h : Status s y) (f : Chan → Chan)
    (hf1 : (f ch).senders = rest) (hf2 : (f ch).receivers = ch.receivers) (hf3 : (f ch).cap = ch.cap)
    (hf4 : (f ch).closed = ch.closed) {s' : State B}
    (hs' : s' = ((s.modChan c f).note (.accepted c y p)).markReady y .nothing) :
    (∀ t, t ≠ y → Same s s' t) ∧ Mono s s' ∧ Status s' y ∧ s'.log = s.log ++ [.accepted c y p] ∧
    (∀ k, s'.chan k = if k = c then f ch else s.chan k) ∧ s'.results = s.results ∧ s'.crashed = s.crashed ∧
    (Core s → Core s') := by
  obtain ⟨clk, sl, hl, hreg, hsame⟩ := popSender hc hs h f hf1 hf2
  have hm := modChan_mono hc f hf3 (by rw [hf4]; exact id)
  have hchan := modChan_chan hc f
  have hcore : Core s → Core (s.modChan c f) := fun hcr => hcr.modChan hc f
  have hf : (s.modChan c f).log = s.log ∧ (s.modChan c f).results = s.results ∧
      (s.modChan c f).crashed = s.crashed := by rw [modChan_some hc]; exact ⟨rfl, rfl, rfl⟩
  generalize s.modChan c f = s0 at *
  obtain ⟨f1, f2, f3⟩ := hf
  have hsl : (s0.note (.accepted c y p)).tasks y = some sl := hl.slot
  have hcalm := markReady_calm hsl .nothing
  rw [← hs'] at hcalm
  have hst : Status s' y := by
    rw [hs']
    refine markReady_status hsl .nothing hreg hl.arms ?_ (st := .send c p) (clk := clk) ?_ ?_
    · exact hl.res
    · show lastPoll y (s0.log ++ [_]) = _
      rw [lastPoll_snoc]; exact hl.poll
    · have : since y (s0.note (.accepted c y p)).log = [.accepted c y p] := by
        show since y (s0.log ++ [_]) = _
        rw [since_snoc]
        simp only [if_true, hl.since, List.nil_append]
      rw [this, hl.ctx]
      exact ⟨rfl, rfl⟩
  have hmk := markReady_some hsl .nothing
  rw [← hs'] at hmk
  refine ⟨?_, hm.trans ((note_mono _ _).trans hcalm.mono), hst, ?_, ?_, hcalm.results.trans f2,
    hcalm.crashed.trans f3, fun hcr => ((hcore hcr).calm (note_calm _ _)).calm hcalm⟩
  · intro t ht
    refine (hsame t ht).trans ((note_same s0 (.accepted c y p) (by simpa [concerns] using Ne.symm ht)).trans ?_)
    rw [hs']
    exact markReady_same hsl _ ht
  · rw [hmk]
    show s0.log ++ _ = _
    rw [f1]
  · intro k
    rw [hmk]
    exact hchan k

/-- After a value left the buffer, the refill brings everything back in order. -/
theorem refill_after_pop {s s2 : State B} {c x : Nat} {ch : Chan} {v : Payload} {q : List Payload}
    (hchok : ∀ k, ChanOk (s.chan k)) (hled : Ledger s) (hc : s.chans c = some ch) (hq : ch.queue = v :: q)
    (h2c : s2.chans = upd s.chans c (some { ch with queue := q })) (h2log : s2.log = s.log ++ [.got c x v])
    (h2res : s2.results = s.results) (h2core : Core s2) (hst : ∀ y p, (y, p) ∈ ch.senders → Status s2 y) :
    (∀ t, Status s2 t → Status (s2.refill c) t) ∧
    (∀ t, (∀ p, (t, p) ∉ ch.senders) → Same s2 (s2.refill c) t) ∧
    (∀ k, ChanOk ((s2.refill c).chan k)) ∧ Ledger (s2.refill c) ∧ Core (s2.refill c) ∧
    (s2.refill c).crashed = s2.crashed ∧ Mono s2 (s2.refill c) := by
  have hc2 : s2.chans c = some { ch with queue := q } := by rw [h2c]; exact upd_same _ _ _
  have hcc := hchok c
  rw [chan_some hc] at hcc
  have hroom : Chan.hasRoom { ch with queue := q } = true := by
    cases hcap : ch.cap with
    | none => simp [Chan.hasRoom, hcap]
    | some n =>
      have := hcc.bound n hcap
      rw [hq] at this
      simp only [List.length_cons] at this
      simp only [Chan.hasRoom, hcap, decide_eq_true_eq]
      omega
  have hrecv : ch.receivers = [] := Classical.byContradiction fun hn => by
    have := (hcc.recv hn).1
    rw [hq] at this; cases this
  have hchan2 : ∀ k, s2.chan k = if k = c then { ch with queue := q } else s.chan k := by
    intro k
    by_cases hk : k = c <;> simp [State.chan, h2c, upd, hk]
  have hlc := hled c
  rw [chan_some hc, hq] at hlc
  cases hsn : ch.senders with
  | nil =>
    have hr : s2.refill c = s2 := by
      unfold State.refill
      rw [chan_some hc2]
      simp [hroom, hsn]
    rw [hr]
    refine ⟨fun t h => h, fun t _ => Same.refl _ _, ?_, ?_, h2core, rfl, Mono.refl _⟩
    · intro k
      rw [hchan2]
      split
      · refine ⟨?_, fun hn => absurd hrecv hn, fun hn => absurd hsn hn⟩
        intro n hn
        have := hcc.bound n hn
        rw [hq] at this
        simp only [List.length_cons] at this
        show q.length ≤ n
        omega
      · exact hchok k
    · refine hled.mk' (c := c) _ h2log h2res ?_ ?_ ?_
      · intro k hk; rw [hchan2, if_neg hk]; exact ⟨rfl, rfl⟩
      · intro e he
        simp only [List.mem_singleton] at he
        exact Or.inr (Or.inr ⟨_, _, he⟩)
      · rw [hchan2, if_pos rfl]
        exact hlc.pop
  | cons yp rest =>
    obtain ⟨y, p⟩ := yp
    have hr : s2.refill c = ((s2.modChan c fun ch => { ch with senders := rest, queue := ch.queue ++ [p] }).note
        (.accepted c y p)).markReady y .nothing := by
      unfold State.refill
      rw [chan_some hc2, if_pos hroom]
      simp only [hsn]
    obtain ⟨w1, w2, w3, w4, w5, w6, w7, w8⟩ := wakeSender (s := s2) (ch := { ch with queue := q }) hc2 hsn
      (hst y p (by rw [hsn]; simp)) (fun ch => { ch with senders := rest, queue := ch.queue ++ [p] }) rfl rfl rfl rfl hr
    have hfin : ∀ k, (s2.refill c).chan k =
        if k = c then { ch with queue := q ++ [p], senders := rest } else s.chan k := by
      intro k
      rw [w5 k]
      by_cases hk : k = c
      · simp [hk]
      · simp only [hk, if_false]
        rw [hchan2, if_neg hk]
    refine ⟨?_, ?_, ?_, ?_, w8 h2core, w7, w2⟩
    · intro t ht
      by_cases hty : t = y
      · rw [hty]; exact w3
      · exact ht.frame w2 (w1 t hty)
    · intro t ht
      refine w1 t ?_
      intro e
      exact ht p (by rw [e]; simp)
    · intro k
      rw [hfin]
      split
      · refine ⟨?_, fun hn => absurd hrecv hn, ?_⟩
        · intro n hn
          have := hcc.bound n hn
          rw [hq] at this
          simp only [List.length_cons] at this
          show (q ++ [p]).length ≤ n
          simp only [List.length_append, List.length_singleton]
          omega
        · intro _
          have := hcc.send (by rw [hsn]; simp)
          cases hcap : ch.cap with
          | none => simp [Chan.hasRoom, hcap] at this
          | some n =>
            simp only [Chan.hasRoom, hcap, hq, List.length_cons, decide_eq_false_iff_not] at this
            simp only [Chan.hasRoom, hcap, List.length_append, List.length_singleton, decide_eq_false_iff_not]
            omega
      · exact hchok k
    · have hlog : (s2.refill c).log = s.log ++ [.got c x v, .accepted c y p] := by
        rw [w4, h2log]; simp
      refine hled.mk' (c := c) _ hlog (w6.trans h2res) ?_ ?_ ?_
      · intro k hk; rw [hfin, if_neg hk]; exact ⟨rfl, rfl⟩
      · intro e he
        simp only [List.mem_cons, List.not_mem_nil, or_false] at he
        rcases he with rfl | rfl
        · exact Or.inr (Or.inr ⟨_, _, rfl⟩)
        · exact Or.inr (Or.inl ⟨_, _, rfl⟩)
      · rw [hfin, if_pos rfl]
        rw [hsn] at hlc
        have h1 := (hlc.pop (x := x)).refill
        simpa using h1

/-- The state right after a buffered value was taken for the running task. -/
theorem pop_facts {s : State B} {x : Nat} {st : Step B} (h : Pre s x st) {c : Nat} {ch : Chan} {v : Payload}
    {q : List Payload} (hc : s.chans c = some ch) {s1 : State B}
    (hs1 : s1 = (s.modChan c fun ch => { ch with queue := q }).note (.got c x v)) :
    (∀ t, t ≠ x → Status s1 t) ∧ Run s1 x st s.clock [.got c x v] {} ∧
    s1.chans = upd s.chans c (some { ch with queue := q }) ∧ s1.log = s.log ++ [.got c x v] ∧
    s1.results = s.results ∧ Core s1 ∧ s1.crashed = s.crashed := by
  have hm := modChan_mono hc (fun ch => { ch with queue := q }) rfl id
  have hsame : ∀ t, Same s (s.modChan c fun ch => { ch with queue := q }) t := fun t => modChan_same hc _ rfl rfl
  have hcore : Core (s.modChan c fun ch => { ch with queue := q }) := h.core.modChan hc _
  have hf := modChan_some hc (fun ch => { ch with queue := q })
  have hf2 : (s.modChan c fun ch => { ch with queue := q }).chans = upd s.chans c (some { ch with queue := q }) ∧
      (s.modChan c fun ch => { ch with queue := q }).log = s.log ∧
      (s.modChan c fun ch => { ch with queue := q }).results = s.results ∧
      (s.modChan c fun ch => { ch with queue := q }).crashed = s.crashed := by rw [hf]; exact ⟨rfl, rfl, rfl, rfl⟩
  clear hf
  generalize (s.modChan c fun ch => { ch with queue := q }) = s0 at *
  obtain ⟨f1, f2, f3, f4⟩ := hf2
  subst hs1
  refine ⟨?_, ?_, f1, ?_, f3, hcore.calm (note_calm _ _), f4⟩
  · intro t ht
    exact (h.status t ht).frame (hm.trans (note_mono _ _))
      ((hsame t).trans (note_same _ _ (by simpa [concerns] using Ne.symm ht)))
  · have hrun := run_note (h.run.frame (hsame x)) (e := .got c x v) (by intros; simp)
    have : since x (s0.log ++ [.got c x v]) = [.got c x v] := by
      rw [since_snoc]
      simp only [if_true, (h.run.frame (hsame x)).since, List.nil_append]
    rw [this] at hrun
    exact hrun
  · show s0.log ++ _ = _
    rw [f2]

theorem mem_senders_ne {s : State B} {x : Nat} {st : Step B} (h : Pre s x st) {c : Nat} {ch : Chan}
    (hc : s.chans c = some ch) (p : Payload) : (x, p) ∉ ch.senders := by
  intro hm
  exact run_ne_sender h.run (c := c) (by rw [chan_some hc]; exact hm) rfl

/-- A buffered value is taken by a receive. -/
theorem takeFor_queue {s : State B} {x : Nat} {st : Step B} (h : Pre s x st) {c : Nat} {ch : Chan} {v : Payload}
    {q : List Payload} (hc : s.chans c = some ch) (hq : ch.queue = v :: q)
    (ha : ∀ s' : State B, Answer s' x s.clock [.got c x v] { resumed := v } st) {s3 : State B}
    (hs3 : s3 = (((s.modChan c fun ch => { ch with queue := q }).note (.got c x v)).markReady x v).refill c) :
    Inv s3 ∧ s3.crashed = s.crashed := by
  obtain ⟨k1, k2, k3, k4, k5, k6, k7⟩ := pop_facts (q := q) (v := v) h hc rfl
  generalize (s.modChan c fun ch => { ch with queue := q }).note (.got c x v) = s1 at *
  obtain ⟨sl, g1, _⟩ := k2.slot
  have hcalm := markReady_calm g1 v
  have hall := Verif.Sched.finish (v := v) k1 k2 (ha _)
  have hmk := markReady_some g1 v
  obtain ⟨r1, _, r3, r4, r5, r6, _⟩ := refill_after_pop (s := s) (s2 := s1.markReady x v) (x := x) h.chans h.ledger hc hq
    (by rw [hmk]; exact k3) (by rw [hmk]; exact k4) (by rw [hmk]; exact k5) (k6.calm hcalm)
    (fun y p _ => hall y)
  subst hs3
  exact ⟨⟨fun t => r1 t (hall t), r3, r4, r5⟩, r6.trans (hcalm.crashed.trans k7)⟩

/-- A buffered value is taken by a select. -/
theorem takeOne_queue {s : State B} {x : Nat} {st : Step B} (h : Pre s x st) {c : Nat} {ch : Chan} {v : Payload}
    {q : List Payload} (hc : s.chans c = some ch) (hq : ch.queue = v :: q) {s3 : State B}
    (hs3 : s3 = ((s.modChan c fun ch => { ch with queue := q }).note (.got c x v)).refill c) :
    Mid s3 x st s.clock [.got c x v] {} ∧ s3.crashed = s.crashed := by
  obtain ⟨k1, k2, k3, k4, k5, k6, k7⟩ := pop_facts (q := q) (v := v) h hc rfl
  have hne := mem_senders_ne h hc
  generalize (s.modChan c fun ch => { ch with queue := q }).note (.got c x v) = s1 at *
  obtain ⟨r1, r2, r3, r4, r5, r6, _⟩ := refill_after_pop (s := s) (s2 := s1) (x := x) h.chans h.ledger hc hq
    k3 k4 k5 k6 (fun y p hy => k1 y (by intro e; rw [e] at hy; exact hne p hy))
  subst hs3
  exact ⟨⟨fun t ht => r1 t (k1 t ht), k2.frame (r2 x hne), r3, r4, r5⟩, r6.trans k7⟩

/-- The state right after the first parked value was taken for the running task. -/
theorem handover_facts {s : State B} {x : Nat} {st : Step B} (h : Pre s x st) {c y : Nat} {ch : Chan} {p : Payload}
    {rest : List (Nat × Payload)} (hc : s.chans c = some ch) (hq : ch.queue = []) (hs : ch.senders = (y, p) :: rest)
    {s1 : State B} (hs1 : s1 = ((s.modChan c fun ch => { ch with senders := rest }).note (.accepted c y p)).note
      (.got c x p)) :
    y ≠ x ∧ (∀ t, t ≠ x → t ≠ y → Status s1 t) ∧ Run s1 x st s.clock [.got c x p] {} ∧
    (∃ clk sl, s1.tasks y = some sl ∧ sl.selectArms = none ∧ sl.ctx = {} ∧ regOf s1 y = {} ∧
      s1.results y = none ∧ lastPoll y s1.log = some (.send c p, clk) ∧ since y s1.log = [.accepted c y p]) ∧
    (∀ k, ChanOk (s1.chan k)) ∧ Ledger s1 ∧ Core s1 ∧ s1.crashed = s.crashed := by
  have hyx : y ≠ x := run_ne_sender h.run (c := c) (p := p) (by rw [chan_some hc, hs]; simp)
  have hcc := h.chans c
  rw [chan_some hc] at hcc
  obtain ⟨clk, sl, hl, hreg, hsame⟩ := popSender hc hs (h.status y hyx) (fun ch => { ch with senders := rest }) rfl rfl
  have hm := modChan_mono hc (fun ch => { ch with senders := rest }) rfl id
  have hchan := modChan_chan hc (fun ch => { ch with senders := rest })
  have hcore : Core (s.modChan c fun ch => { ch with senders := rest }) := h.core.modChan hc _
  have hf : (s.modChan c fun ch => { ch with senders := rest }).log = s.log ∧
      (s.modChan c fun ch => { ch with senders := rest }).results = s.results ∧
      (s.modChan c fun ch => { ch with senders := rest }).crashed = s.crashed := by
    rw [modChan_some hc]; exact ⟨rfl, rfl, rfl⟩
  generalize (s.modChan c fun ch => { ch with senders := rest }) = s0 at *
  obtain ⟨f1, f2, f3⟩ := hf
  subst hs1
  have hlog : ((s0.note (.accepted c y p)).note (.got c x p)).log = s.log ++ [.accepted c y p, .got c x p] := by
    show (s0.log ++ _) ++ _ = _
    rw [f1]; simp
  refine ⟨hyx, ?_, ?_, ⟨clk, sl, hl.slot, hl.arms, hl.ctx, hreg, hl.res, ?_, ?_⟩, ?_, ?_, ?_, f3⟩
  · intro t ht hty
    exact (h.status t ht).frame (hm.trans ((note_mono _ _).trans (note_mono _ _)))
      ((hsame t hty).trans ((note_same _ _ (by simpa [concerns] using Ne.symm hty)).trans
        (note_same _ _ (by simpa [concerns] using Ne.symm ht))))
  · have hrun0 := (h.run.frame (hsame x (Ne.symm hyx))).frame
      (note_same s0 (.accepted c y p) (by simpa [concerns] using hyx))
    have hrun := run_note hrun0 (e := .got c x p) (by intros; simp)
    have : since x ((s0.note (.accepted c y p)).log ++ [.got c x p]) = [.got c x p] := by
      rw [since_snoc]
      simp only [if_true, hrun0.since, List.nil_append]
    rw [this] at hrun
    exact hrun
  · show lastPoll y ((s0.log ++ [_]) ++ [_]) = _
    rw [lastPoll_snoc, lastPoll_snoc]; exact hl.poll
  · show since y ((s0.log ++ [_]) ++ [_]) = _
    rw [since_snoc, since_snoc]
    simp only [if_true, Ne.symm hyx, if_false, hl.since, List.nil_append]
  · intro k
    show ChanOk (s0.chan k)
    rw [hchan]
    split
    · refine ⟨hcc.bound, fun hn => ?_, fun _ => ?_⟩
      · have := (hcc.recv hn).2.1
        rw [hs] at this; cases this
      · exact hcc.send (by rw [hs]; simp)
    · exact h.chans k
  · refine h.ledger.mk' (c := c) _ hlog f2 ?_ ?_ ?_
    · intro k hk
      have e : ((s0.note (.accepted c y p)).note (.got c x p)).chan k = s.chan k := by
        show s0.chan k = _
        rw [hchan, if_neg hk]
      rw [e]; exact ⟨rfl, rfl⟩
    · intro e he
      simp only [List.mem_cons, List.not_mem_nil, or_false] at he
      rcases he with rfl | rfl
      · exact Or.inr (Or.inl ⟨_, _, rfl⟩)
      · exact Or.inr (Or.inr ⟨_, _, rfl⟩)
    · have e : ((s0.note (.accepted c y p)).note (.got c x p)).chan c = { ch with senders := rest } := by
        show s0.chan c = _
        rw [hchan, if_pos rfl]
      rw [e]
      show LedgerAt _ _ _ ch.queue rest
      rw [hq]
      have hlc := h.ledger c
      rw [chan_some hc, hq, hs] at hlc
      exact hlc.handover
  · exact hcore.calm ((note_calm _ _).trans (note_calm _ _))

/-- A parked sender hands its value to a receive. -/
theorem takeFor_sender {s : State B} {x : Nat} {st : Step B} (h : Pre s x st) {c y : Nat} {ch : Chan} {p : Payload}
    {rest : List (Nat × Payload)} (hc : s.chans c = some ch) (hq : ch.queue = []) (hs : ch.senders = (y, p) :: rest)
    (ha : ∀ s' : State B, Answer s' x s.clock [.got c x p] { resumed := p } st) {s3 : State B}
    (hs3 : s3 = ((((s.modChan c fun ch => { ch with senders := rest }).note (.accepted c y p)).note
      (.got c x p)).markReady x p).markReady y .nothing) :
    Inv s3 ∧ s3.crashed = s.crashed := by
  obtain ⟨k0, k1, k2, ⟨clk, sl, m1, m2, m3, m4, m5, m6, m7⟩, k4, k5, k6, k7⟩ := handover_facts h hc hq hs rfl
  generalize ((s.modChan c fun ch => { ch with senders := rest }).note (.accepted c y p)).note (.got c x p) = s1 at *
  obtain ⟨slx, g1, g2, g3, g4⟩ := k2.slot
  have hc1 := markReady_calm g1 p
  have hmk := markReady_some g1 p
  have hsl : (s1.markReady x p).tasks y = some sl := by rw [(markReady_same g1 p k0).task]; exact m1
  have hc2 := markReady_calm hsl .nothing
  subst hs3
  have hsx : Status (s1.markReady x p) x :=
    markReady_status g1 p k2.reg g3 k2.res k2.poll (by rw [k2.since, g4]; exact ha _)
  have hlog : (s1.markReady x p).log = s1.log := by rw [hmk]
  refine ⟨⟨?_, fun k => ((k4 k).calm hc1).calm hc2, ?_, (k6.calm hc1).calm hc2⟩,
    hc2.crashed.trans (hc1.crashed.trans k7)⟩
  · intro t
    by_cases hty : t = y
    · rw [hty]
      refine markReady_status hsl .nothing ?_ m2 ?_ (st := .send c p) (clk := clk) ?_ ?_
      · rw [(markReady_same g1 p k0).reg]; exact m4
      · rw [hc1.results]; exact m5
      · rw [hlog]; exact m6
      · rw [hlog, m7, m3]; exact ⟨rfl, rfl⟩
    · refine Status.frame hc2.mono (markReady_same hsl _ hty) ?_
      by_cases htx : t = x
      · rw [htx]; exact hsx
      · exact (k1 t htx hty).frame hc1.mono (markReady_same g1 _ htx)
  · refine (k5.quiet hlog hc1.results fun k => ⟨(hc1.chans k).2.1, (hc1.chans k).2.2.1⟩).quiet
      (markReady_log hsl _) hc2.results fun k => ⟨(hc2.chans k).2.1, (hc2.chans k).2.2.1⟩

/-- A parked sender hands its value to a select. -/
theorem takeOne_sender {s : State B} {x : Nat} {st : Step B} (h : Pre s x st) {c y : Nat} {ch : Chan} {p : Payload}
    {rest : List (Nat × Payload)} (hc : s.chans c = some ch) (hq : ch.queue = []) (hs : ch.senders = (y, p) :: rest)
    {s3 : State B} (hs3 : s3 = (((s.modChan c fun ch => { ch with senders := rest }).note (.accepted c y p)).note
      (.got c x p)).markReady y .nothing) :
    Mid s3 x st s.clock [.got c x p] {} ∧ s3.crashed = s.crashed := by
  obtain ⟨k0, k1, k2, ⟨clk, sl, m1, m2, m3, m4, m5, m6, m7⟩, k4, k5, k6, k7⟩ := handover_facts h hc hq hs rfl
  generalize ((s.modChan c fun ch => { ch with senders := rest }).note (.accepted c y p)).note (.got c x p) = s1 at *
  have hc1 := markReady_calm m1 .nothing
  subst hs3
  refine ⟨⟨?_, k2.frame (markReady_same m1 _ (Ne.symm k0)), fun k => (k4 k).calm hc1, ?_, k6.calm hc1⟩,
    hc1.crashed.trans k7⟩
  · intro t ht
    by_cases hty : t = y
    · rw [hty]
      exact markReady_status m1 .nothing m4 m2 m5 m6 (by rw [m7, m3]; exact ⟨rfl, rfl⟩)
    · exact (k1 t ht hty).frame hc1.mono (markReady_same m1 _ hty)
  · exact k5.quiet (markReady_log m1 _) hc1.results fun k => ⟨(hc1.chans k).2.1, (hc1.chans k).2.2.1⟩

/-- What `takeFor` does for a receive. -/
theorem takeFor_inv {s : State B} {x : Nat} {st : Step B} (h : Pre s x st) {c : Nat} {ch : Chan}
    (hc : s.chans c = some ch)
    (ha : ∀ (s' : State B) v, Answer s' x s.clock [.got c x v] { resumed := v } st) :
    (∃ s', s.takeFor x c = some s' ∧ Inv s' ∧ s'.crashed = s.crashed) ∨
    (s.takeFor x c = none ∧ ch.queue = [] ∧ ch.senders = []) := by
  unfold State.takeFor
  rw [chan_some hc]
  cases hq : ch.queue with
  | cons v q =>
    exact Or.inl ⟨_, rfl, takeFor_queue h hc hq (fun s' => ha s' v) rfl⟩
  | nil =>
    cases hs : ch.senders with
    | cons yp rest =>
      obtain ⟨y, p⟩ := yp
      exact Or.inl ⟨_, rfl, takeFor_sender h hc hq hs (fun s' => ha s' p) rfl⟩
    | nil => exact Or.inr ⟨rfl, rfl, rfl⟩

theorem doTryRecv_inv {s : State B} {x c : Nat} (h : Pre s x (.tryRecv c)) (hok : StepOk s x (.tryRecv c)) :
    Inv (s.doTryRecv x c) ∧ (s.doTryRecv x c).crashed = s.crashed := by
  obtain ⟨ch, hc⟩ := Option.isSome_iff_exists.mp hok
  unfold State.doTryRecv
  rcases takeFor_inv h hc (fun s' v => Or.inl ⟨v, rfl, rfl⟩) with ⟨s', e, k⟩ | ⟨e, _⟩
  · rw [e]; exact k
  · rw [e]; exact h.mid.finish (v := .nothing) (Or.inr ⟨rfl, rfl⟩)

/-- A receive parks on an empty open channel. -/
theorem recv_park {s : State B} {x : Nat} {c : Nat} {ch : Chan} (h : Pre s x (.recv c))
    (hc : s.chans c = some ch) (hq : ch.queue = []) (hs : ch.senders = []) (hcl : ch.closed = false)
    {s2 : State B}
    (hs2 : s2 = (s.modChan c fun ch => { ch with receivers := ch.receivers ++ [x] }).park x .blockedRecv) :
    Inv s2 ∧ s2.crashed = s.crashed := by
  have hreg := modChan_reg hc (fun ch => { ch with receivers := ch.receivers ++ [x] }) x
  have hsame0 : ∀ t, t ≠ x → Same s (s.modChan c fun ch => { ch with receivers := ch.receivers ++ [x] }) t := by
    intro t ht
    refine modChan_same hc _ ?_ rfl
    simp [List.count_append, List.count_singleton, Ne.symm ht]
  have hm0 := modChan_mono hc (fun ch => { ch with receivers := ch.receivers ++ [x] }) rfl id
  have hchan0 := modChan_chan hc (fun ch => { ch with receivers := ch.receivers ++ [x] })
  have hcore0 : Core (s.modChan c fun ch => { ch with receivers := ch.receivers ++ [x] }) := h.core.modChan hc _
  have hf : (s.modChan c fun ch => { ch with receivers := ch.receivers ++ [x] }).log = s.log ∧
      (s.modChan c fun ch => { ch with receivers := ch.receivers ++ [x] }).results = s.results ∧
      (s.modChan c fun ch => { ch with receivers := ch.receivers ++ [x] }).crashed = s.crashed ∧
      (s.modChan c fun ch => { ch with receivers := ch.receivers ++ [x] }).tasks = s.tasks := by
    rw [modChan_some hc]; exact ⟨rfl, rfl, rfl, rfl⟩
  generalize (s.modChan c fun ch => { ch with receivers := ch.receivers ++ [x] }) = s0 at *
  subst hs2
  obtain ⟨f1, f2, f3, f4⟩ := hf
  obtain ⟨sl, g1, g2, g3, g4⟩ := h.run.slot
  have hsl : s0.tasks x = some sl := by rw [f4]; exact g1
  have hx0 : ch.receivers.count x = 0 := by
    have : (regOf s x).recv c = 0 := by rw [h.run.reg]
    simpa only [regOf, chan_some hc] using this
  have hcalm : Calm s0 (s0.park x .blockedRecv) := modTask_calm hsl _
  have hlogp : (s0.park x .blockedRecv).log = s.log := by rw [park_some hsl]; exact f1
  refine ⟨⟨?_, ?_, ?_, hcore0.calm hcalm⟩, hcalm.crashed.trans f3⟩
  · refine park_status (st := .recv c) (clk := s.clock) (sl := sl) ?_ hsl g4 g3 ?_ ?_ ?_ rfl ?_ trivial
    · intro t ht
      exact (h.status t ht).frame hm0 (hsame0 t ht)
    · rw [f1]; exact h.run.poll
    · rw [f1]; exact h.run.since
    · rw [f2]; exact h.run.res
    · rw [hreg, h.run.reg]
      simp only [waitReg, List.count_append, hx0, hs, Reg.mk.injEq, true_and, and_true]
      refine ⟨?_, ?_⟩ <;>
      · funext k
        by_cases hk : k = c <;> simp [upd, hk]
  · intro k
    refine ChanOk.calm ?_ hcalm
    rw [hchan0]
    split
    · have hcc := h.chans c
      rw [chan_some hc] at hcc
      exact ⟨hcc.bound, fun _ => ⟨hq, hs, hcl⟩, fun hn => absurd hs hn⟩
    · exact h.chans k
  · refine h.ledger.quiet hlogp (hcalm.results.trans f2) ?_
    intro k
    obtain ⟨_, a2, a3, _⟩ := hcalm.chans k
    rw [a2, a3, hchan0]
    split
    · next hk => rw [hk, chan_some hc]; exact ⟨rfl, rfl⟩
    · exact ⟨rfl, rfl⟩

theorem doRecv_inv {s : State B} {x c : Nat} (h : Pre s x (.recv c)) (hok : StepOk s x (.recv c)) :
    Inv (s.doRecv x c) ∧ (s.doRecv x c).crashed = s.crashed := by
  obtain ⟨ch, hc⟩ := Option.isSome_iff_exists.mp hok
  unfold State.doRecv
  rcases takeFor_inv h hc (fun s' v => Or.inl ⟨v, rfl, rfl⟩) with ⟨s', e, k⟩ | ⟨e, hq, hs⟩
  · rw [e]; exact k
  · rw [e, chan_some hc]
    simp only
    split
    · next hcl => exact h.mid.finish (v := .nothing) (Or.inr ⟨rfl, rfl, ch, hc, hcl⟩)
    · next hcl => exact recv_park h hc hq hs (by simpa using hcl) rfl

end Verif.Sched
