import Verif.Sched.Inv
/-!
# Every step preserves the invariant: sends and receives
-/

namespace Verif.Sched
variable {B : Type}

/-- The invariant in the middle of a step of task `x`. -/
structure Mid (s : State B) (x : Nat) (st : Step B) (clk : Nat) (evs : List (Ev B)) (ctx : Ctx) : Prop where
  status : ∀ t, t ≠ x → Status s t
  run : Run s x st clk evs ctx
  chans : ∀ c, ChanOk (s.chan c)
  ledger : Ledger s
  core : Core s

theorem Pre.mid {s : State B} {x : Nat} {st : Step B} (h : Pre s x st) : Mid s x st s.clock [] {} :=
  ⟨h.status, h.run, h.chans, h.ledger, h.core⟩

theorem markReady_log {s : State B} {t : Nat} {sl : Slot B} (h : s.tasks t = some sl) (v : Payload) :
    (s.markReady t v).log = s.log := by rw [markReady_some h]

theorem Mid.finish {s : State B} {x : Nat} {st : Step B} {clk : Nat} {evs : List (Ev B)} {ctx : Ctx}
    (h : Mid s x st clk evs ctx) {v : Payload} (ha : Answer s x clk evs { ctx with resumed := v } st) :
    Inv (s.markReady x v) ∧ (s.markReady x v).crashed = s.crashed := by
  obtain ⟨sl, h1, h2, h3, h4⟩ := h.run.slot
  have hc := markReady_calm h1 v
  refine ⟨⟨Verif.Sched.finish h.status h.run ha, fun c => (h.chans c).calm hc, ?_, h.core.calm hc⟩, hc.crashed⟩
  exact h.ledger.quiet (markReady_log h1 v) hc.results fun k => ⟨(hc.chans k).2.1, (hc.chans k).2.2.1⟩

theorem run_note {s : State B} {x : Nat} {st : Step B} {clk : Nat} {evs : List (Ev B)} {ctx : Ctx}
    (h : Run s x st clk evs ctx) {e : Ev B} (hp : ∀ t c s' k, e ≠ .poll t c s' k) :
    Run (s.note e) x st clk (since x (s.log ++ [e])) ctx := by
  refine ⟨h.slot, h.reg, ?_, rfl, h.res⟩
  show lastPoll x (s.log ++ [e]) = _
  rw [lastPoll_snoc]
  cases e with
  | poll t c s' k => exact absurd rfl (hp t c s' k)
  | _ => exact h.poll

theorem run_ne {s : State B} {x : Nat} {st : Step B} {clk : Nat} {evs : List (Ev B)} {ctx : Ctx}
    (h : Run s x st clk evs ctx) {r c : Nat} (hr : r ∈ (s.chan c).receivers) : r ≠ x := by
  intro e
  have : (regOf s x).recv c = 0 := by rw [h.reg]
  simp only [regOf] at this
  rw [e] at hr
  exact absurd (List.count_pos_iff.mpr hr) (by omega)

theorem run_ne_sender {s : State B} {x : Nat} {st : Step B} {clk : Nat} {evs : List (Ev B)} {ctx : Ctx}
    (h : Run s x st clk evs ctx) {y c : Nat} {p : Payload} (hr : (y, p) ∈ (s.chan c).senders) : y ≠ x := by
  intro e
  have h0 : (regOf s x).send c = [] := by rw [h.reg]
  simp only [regOf, List.map_eq_nil_iff, List.filter_eq_nil_iff] at h0
  exact h0 _ hr (by simp [e])

/-- A send meets a waiting receiver: the receiver is woken with the value. -/
theorem send_receiver {s : State B} {x : Nat} {st : Step B} (h : Pre s x st) {c r : Nat} {rs : List Nat}
    {ch : Chan} {p : Payload} (hc : s.chans c = some ch) (hr : ch.receivers = r :: rs) {s3 : State B}
    (hs3 : s3 = (((s.modChan c fun ch => { ch with receivers := rs }).note (.sent c x p)).note
      (.accepted c x p)).deliver r c p) :
    Mid s3 x st s.clock [.accepted c x p] {} ∧ s3.crashed = s.crashed := by
  have hmem : r ∈ (s.chan c).receivers := by rw [chan_some hc, hr]; simp
  have hrx : r ≠ x := run_ne h.run hmem
  obtain ⟨st', clk', sl', hl, hw, hreg, hsame⟩ := popReceiver hc hr (h.status r hrx)
  have hm0 := modChan_mono hc (fun ch => { ch with receivers := rs }) rfl id
  generalize hs0 : (s.modChan c fun ch => { ch with receivers := rs }) = s0 at *
  have hm2 : Mono s ((s0.note (.sent c x p)).note (.accepted c x p)) :=
    hm0.trans ((note_mono _ _).trans (note_mono _ _))
  have hsame2 : ∀ t, t ≠ x → Same s0 ((s0.note (.sent c x p)).note (.accepted c x p)) t := fun t ht =>
    (note_same _ _ (by simp [concerns])).trans (note_same _ _ (by simpa [concerns] using Ne.symm ht))
  obtain ⟨d1, d2, d3, d4⟩ := deliver_ok (v := p) (hl.frame (hsame2 r hrx)) hw ((hsame2 r hrx).reg.trans hreg)
  rw [← hs3] at d1 d2 d3 d4
  have hlog0 : s0.log = s.log := by rw [← hs0, modChan_some hc]
  have hlog : s3.log = s.log ++ [.sent c x p, .accepted c x p, .got c r p] := by
    rw [d4]
    show ((s0.log ++ _) ++ _) ++ _ = _
    rw [hlog0]; simp
  have hres : s3.results = s.results := by
    rw [d1.results]
    show s0.results = _
    rw [← hs0, modChan_some hc]
  have hempty := (h.chans c).recv (by rw [chan_some hc, hr]; simp)
  have hchan0 : ∀ k, s0.chan k = if k = c then { ch with receivers := rs } else s.chan k := by
    intro k; rw [← hs0]; exact modChan_chan hc _ k
  have hok0 : ∀ k, ChanOk (((s0.note (.sent c x p)).note (.accepted c x p)).chan k) := by
    intro k
    show ChanOk (s0.chan k)
    rw [hchan0]
    split
    · rw [chan_some hc] at hempty
      have hcc := h.chans c
      rw [chan_some hc] at hcc
      exact ⟨hcc.bound, fun _ => hempty, fun hn => absurd hempty.2.1 hn⟩
    · exact h.chans k
  have hcore0 : Core s0 := by rw [← hs0]; exact h.core.modChan hc _
  refine ⟨⟨?_, ?_, fun k => (hok0 k).calm d1, ?_, ?_⟩, ?_⟩
  · intro t ht
    by_cases htr : t = r
    · rw [htr]; exact d3
    · exact (h.status t ht).frame (hm2.trans d1.mono)
        ((hsame t htr).trans ((hsame2 t ht).trans (d2 t htr)))
  · have hrun0 : Run s0 x st s.clock [] {} := h.run.frame (hsame x (Ne.symm hrx))
    have hrun1 := (hrun0.frame (note_same s0 (.sent c x p) (by simp [concerns])))
    have hrun2 := run_note hrun1 (e := .accepted c x p) (by intros; simp)
    refine Run.frame (d2 x (Ne.symm hrx)) ?_
    have : since x ((s0.note (.sent c x p)).log ++ [.accepted c x p]) = [.accepted c x p] := by
      rw [since_snoc]
      simp only [if_true, hrun1.since, List.nil_append]
    rw [this] at hrun2
    exact hrun2
  · refine h.ledger.mk' (c := c) _ hlog hres ?_ ?_ ?_
    · intro k hk
      obtain ⟨_, a2, a3, _⟩ := d1.chans k
      have e : ((s0.note (.sent c x p)).note (.accepted c x p)).chan k = s.chan k := by
        show s0.chan k = _
        rw [hchan0, if_neg hk]
      rw [a2, a3, e]; exact ⟨rfl, rfl⟩
    · intro e he
      simp only [List.mem_cons, List.not_mem_nil, or_false] at he
      rcases he with rfl | rfl | rfl
      · exact Or.inl ⟨_, _, rfl⟩
      · exact Or.inr (Or.inl ⟨_, _, rfl⟩)
      · exact Or.inr (Or.inr ⟨_, _, rfl⟩)
    · obtain ⟨_, a2, a3, _⟩ := d1.chans c
      have e : ((s0.note (.sent c x p)).note (.accepted c x p)).chan c = { ch with receivers := rs } := by
        show s0.chan c = _
        rw [hchan0, if_pos rfl]
      rw [a2, a3, e]
      rw [chan_some hc] at hempty
      have hlc := h.ledger c
      rw [chan_some hc, hempty.1, hempty.2.1] at hlc
      show LedgerAt _ _ _ ch.queue ch.senders
      rw [hempty.1, hempty.2.1]
      exact hlc.through
  · exact (hcore0.calm ((note_calm _ _).trans (note_calm _ _))).calm d1
  · rw [d1.crashed]
    show s0.crashed = _
    rw [← hs0, modChan_some hc]

/-- A send finds room in the buffer. -/
theorem send_room {s : State B} {x : Nat} {st : Step B} (h : Pre s x st) {c : Nat} {ch : Chan} {p : Payload}
    (hc : s.chans c = some ch) (hr : ch.receivers = []) (hroom : ch.hasRoom = true) {s2 : State B}
    (hs2 : s2 = ((s.modChan c fun ch => { ch with queue := ch.queue ++ [p] }).note (.sent c x p)).note
      (.accepted c x p)) :
    Mid s2 x st s.clock [.accepted c x p] {} ∧ s2.crashed = s.crashed := by
  have hsame0 : ∀ t, Same s (s.modChan c fun ch => { ch with queue := ch.queue ++ [p] }) t := fun t =>
    modChan_same hc _ rfl rfl
  have hm0 := modChan_mono hc (fun ch => { ch with queue := ch.queue ++ [p] }) rfl id
  have hchan0 := modChan_chan hc (fun ch => { ch with queue := ch.queue ++ [p] })
  have hcore0 : Core (s.modChan c fun ch => { ch with queue := ch.queue ++ [p] }) := h.core.modChan hc _
  have hlog0 : (s.modChan c fun ch => { ch with queue := ch.queue ++ [p] }).log = s.log := by rw [modChan_some hc]
  have hres0 : (s.modChan c fun ch => { ch with queue := ch.queue ++ [p] }).results = s.results := by
    rw [modChan_some hc]
  have hcr0 : (s.modChan c fun ch => { ch with queue := ch.queue ++ [p] }).crashed = s.crashed := by
    rw [modChan_some hc]
  have hcc := h.chans c
  rw [chan_some hc] at hcc
  have hsn : ch.senders = [] := Classical.byContradiction fun hn => by
    rw [hcc.send hn] at hroom
    cases hroom
  generalize (s.modChan c fun ch => { ch with queue := ch.queue ++ [p] }) = s0 at *
  subst hs2
  have hsame2 : ∀ t, t ≠ x → Same s0 ((s0.note (.sent c x p)).note (.accepted c x p)) t := fun t ht =>
    (note_same _ _ (by simp [concerns])).trans (note_same _ _ (by simpa [concerns] using Ne.symm ht))
  have hm2 : Mono s ((s0.note (.sent c x p)).note (.accepted c x p)) := hm0.trans ((note_mono _ _).trans (note_mono _ _))
  refine ⟨⟨?_, ?_, ?_, ?_, ?_⟩, hcr0⟩
  · intro t ht
    exact (h.status t ht).frame hm2 ((hsame0 t).trans (hsame2 t ht))
  · have hrun0 : Run s0 x st s.clock [] {} := h.run.frame (hsame0 x)
    have hrun1 := (hrun0.frame (note_same s0 (.sent c x p) (by simp [concerns])))
    have hrun2 := run_note hrun1 (e := .accepted c x p) (by intros; simp)
    have : since x ((s0.note (.sent c x p)).log ++ [.accepted c x p]) = [.accepted c x p] := by
      rw [since_snoc]
      simp only [if_true, hrun1.since, List.nil_append]
    rw [this] at hrun2
    exact hrun2
  · intro k
    show ChanOk (s0.chan k)
    rw [hchan0]
    split
    · refine ⟨?_, fun hn => absurd hr hn, fun hn => absurd hsn hn⟩
      intro n hn
      have hn' : ch.cap = some n := hn
      simp only [Chan.hasRoom, hn', decide_eq_true_eq] at hroom
      simp only [List.length_append, List.length_singleton]
      omega
    · exact h.chans k
  · have hlog : ((s0.note (.sent c x p)).note (.accepted c x p)).log = s.log ++ [.sent c x p, .accepted c x p] := by
      show (s0.log ++ _) ++ _ = _
      rw [hlog0]; simp
    refine h.ledger.mk' (c := c) _ hlog hres0 ?_ ?_ ?_
    · intro k hk
      have e : ((s0.note (.sent c x p)).note (.accepted c x p)).chan k = s.chan k := by
        show s0.chan k = _
        rw [hchan0, if_neg hk]
      rw [e]; exact ⟨rfl, rfl⟩
    · intro e he
      simp only [List.mem_cons, List.not_mem_nil, or_false] at he
      rcases he with rfl | rfl
      · exact Or.inl ⟨_, _, rfl⟩
      · exact Or.inr (Or.inl ⟨_, _, rfl⟩)
    · have e : ((s0.note (.sent c x p)).note (.accepted c x p)).chan c = { ch with queue := ch.queue ++ [p] } := by
        show s0.chan c = _
        rw [hchan0, if_pos rfl]
      rw [e]
      have hlc := h.ledger c
      rw [chan_some hc, hsn] at hlc
      show LedgerAt _ _ _ (ch.queue ++ [p]) ch.senders
      rw [hsn]
      exact hlc.push
  · exact hcore0.calm ((note_calm _ _).trans (note_calm _ _))

theorem park_some {s : State B} {t : Nat} {sl : Slot B} (h : s.tasks t = some sl) (st : TState) :
    s.park t st = { s with tasks := upd s.tasks t (some { sl with state := st }) } := by
  simp [State.park, State.modTask, h]

/-- The running task parks: its step's registration has been made. -/
theorem park_status {s : State B} {x : Nat} {st : Step B} {clk : Nat} {sl : Slot B} {ts : TState}
    (hs : ∀ t, t ≠ x → Status s t) (hsl : s.tasks x = some sl) (hctx : sl.ctx = {})
    (harm : sl.selectArms = armsFor st) (hl : lastPoll x s.log = some (st, clk)) (he : since x s.log = [])
    (hres : s.results x = none) (hw : waitState st = some ts) (hr : regOf s x = waitReg clk st)
    (hk : ArmsOk st) : ∀ t, Status (s.park x ts) t := by
  intro t
  by_cases ht : t = x
  · rw [ht, park_some hsl]
    exact .blocked { sl with state := ts } st clk (upd_same _ _ _) hl hw hr he hctx hres harm hk
  · exact (hs t ht).frame (modTask_mono hsl _) (modTask_same hsl _ ht)

/-- A send parks on a full channel. -/
theorem send_park {s : State B} {x : Nat} {c : Nat} {ch : Chan} {p : Payload} (h : Pre s x (.send c p))
    (hc : s.chans c = some ch) (hr : ch.receivers = []) (hroom : ch.hasRoom = false) {s2 : State B}
    (hs2 : s2 = ((s.modChan c fun ch => { ch with senders := ch.senders ++ [(x, p)] }).note (.sent c x p)).park x
        .blockedSend) : Inv s2 ∧ s2.crashed = s.crashed := by
  have hreg := modChan_reg hc (fun ch => { ch with senders := ch.senders ++ [(x, p)] }) x
  have hsame0 : ∀ t, t ≠ x → Same s (s.modChan c fun ch => { ch with senders := ch.senders ++ [(x, p)] }) t := by
    intro t ht
    refine modChan_same hc _ rfl ?_
    simp [List.filter_append, Ne.symm ht]
  have hm0 := modChan_mono hc (fun ch => { ch with senders := ch.senders ++ [(x, p)] }) rfl id
  have hchan0 := modChan_chan hc (fun ch => { ch with senders := ch.senders ++ [(x, p)] })
  have hcore0 : Core (s.modChan c fun ch => { ch with senders := ch.senders ++ [(x, p)] }) := h.core.modChan hc _
  have hf : (s.modChan c fun ch => { ch with senders := ch.senders ++ [(x, p)] }).log = s.log ∧
      (s.modChan c fun ch => { ch with senders := ch.senders ++ [(x, p)] }).results = s.results ∧
      (s.modChan c fun ch => { ch with senders := ch.senders ++ [(x, p)] }).crashed = s.crashed ∧
      (s.modChan c fun ch => { ch with senders := ch.senders ++ [(x, p)] }).tasks = s.tasks := by
    rw [modChan_some hc]; exact ⟨rfl, rfl, rfl, rfl⟩
  generalize (s.modChan c fun ch => { ch with senders := ch.senders ++ [(x, p)] }) = s0 at *
  subst hs2
  obtain ⟨f1, f2, f3, f4⟩ := hf
  obtain ⟨sl, g1, g2, g3, g4⟩ := h.run.slot
  have hsl : (s0.note (.sent c x p)).tasks x = some sl := by
    show s0.tasks x = _
    rw [f4]; exact g1
  have hx0 : ch.senders.filter (·.1 = x) = [] := by
    have : (regOf s x).send c = [] := by rw [h.run.reg]
    simp only [regOf, chan_some hc, List.map_eq_nil_iff] at this
    exact this
  have hcalm : Calm (s0.note (.sent c x p)) ((s0.note (.sent c x p)).park x .blockedSend) := modTask_calm hsl _
  refine ⟨⟨?_, ?_, ?_, ?_⟩, hcalm.crashed.trans f3⟩
  · refine park_status (st := .send c p) (clk := s.clock) (sl := sl) ?_ hsl g4 g3 ?_ ?_ ?_ rfl ?_ trivial
    · intro t ht
      exact (h.status t ht).frame (hm0.trans (note_mono _ _))
        ((hsame0 t ht).trans (note_same _ _ (by simp [concerns])))
    · show lastPoll x (s0.log ++ [_]) = _
      rw [lastPoll_snoc, f1]; exact h.run.poll
    · show since x (s0.log ++ [_]) = _
      rw [since_snoc, f1]; exact h.run.since
    · show s0.results x = none
      rw [f2]; exact h.run.res
    · show regOf s0 x = _
      rw [hreg, h.run.reg]
      simp only [waitReg, List.filter_append, hx0, List.nil_append, Reg.mk.injEq, true_and, and_true]
      refine ⟨?_, ?_⟩
      · funext k
        by_cases hk : k = c
        · simp [upd, hk, hr]
        · simp [upd, hk]
      · funext k
        by_cases hk : k = c <;> simp [upd, hk]
  · intro k
    refine ChanOk.calm ?_ hcalm
    show ChanOk (s0.chan k)
    rw [hchan0]
    split
    · have hcc := h.chans c
      rw [chan_some hc] at hcc
      refine ⟨hcc.bound, fun hn => absurd hr hn, fun _ => ?_⟩
      exact hroom
    · exact h.chans k
  · have hlog : ((s0.note (.sent c x p)).park x .blockedSend).log = s.log ++ [.sent c x p] := by
      show (State.park _ x _).log = _
      rw [park_some hsl]
      show s0.log ++ _ = _
      rw [f1]
    refine h.ledger.mk' (c := c) _ hlog (hcalm.results.trans f2) ?_ ?_ ?_
    · intro k hk
      obtain ⟨_, a2, a3, _⟩ := hcalm.chans k
      have e : (s0.note (.sent c x p)).chan k = s.chan k := by
        show s0.chan k = _
        rw [hchan0, if_neg hk]
      rw [a2, a3, e]; exact ⟨rfl, rfl⟩
    · intro e he
      simp only [List.mem_cons, List.not_mem_nil, or_false] at he
      rcases he with rfl
      exact Or.inl ⟨_, _, rfl⟩
    · obtain ⟨_, a2, a3, _⟩ := hcalm.chans c
      have e : (s0.note (.sent c x p)).chan c = { ch with senders := ch.senders ++ [(x, p)] } := by
        show s0.chan c = _
        rw [hchan0, if_pos rfl]
      rw [a2, a3, e]
      have hlc := h.ledger c
      rw [chan_some hc] at hlc
      exact hlc.parked
  · exact (hcore0.calm (note_calm _ _)).calm hcalm

theorem doSend_inv {s : State B} {x c : Nat} {p : Payload} (h : Pre s x (.send c p)) (hok : StepOk s x (.send c p)) :
    Inv (s.doSend x c p) ∧ (s.doSend x c p).crashed = s.crashed := by
  obtain ⟨ch, hc⟩ := Option.isSome_iff_exists.mp hok
  unfold State.doSend
  rw [chan_some hc]
  cases hr : ch.receivers with
  | cons r rs =>
    obtain ⟨hm, hcr⟩ := send_receiver (p := p) h hc hr rfl
    obtain ⟨k1, k2⟩ := hm.finish (v := .nothing) ⟨rfl, rfl⟩
    exact ⟨k1, k2.trans hcr⟩
  | nil =>
    simp only
    cases hroom : ch.hasRoom with
    | true =>
      obtain ⟨hm, hcr⟩ := send_room (p := p) h hc hr hroom rfl
      obtain ⟨k1, k2⟩ := hm.finish (v := .nothing) ⟨rfl, rfl⟩
      exact ⟨k1, k2.trans hcr⟩
    | false => exact send_park h hc hr hroom rfl

theorem doTrySend_inv {s : State B} {x c : Nat} {p : Payload} (h : Pre s x (.trySend c p))
    (hok : StepOk s x (.trySend c p)) :
    Inv (s.doTrySend x c p) ∧ (s.doTrySend x c p).crashed = s.crashed := by
  obtain ⟨ch, hc⟩ := Option.isSome_iff_exists.mp hok
  unfold State.doTrySend
  rw [chan_some hc]
  cases hr : ch.receivers with
  | cons r rs =>
    obtain ⟨hm, hcr⟩ := send_receiver (p := p) h hc hr rfl
    obtain ⟨k1, k2⟩ := hm.finish (v := .bool true) (Or.inl ⟨rfl, rfl⟩)
    exact ⟨k1, k2.trans hcr⟩
  | nil =>
    simp only
    cases hroom : ch.hasRoom with
    | true =>
      obtain ⟨hm, hcr⟩ := send_room (p := p) h hc hr hroom rfl
      obtain ⟨k1, k2⟩ := hm.finish (v := .bool true) (Or.inl ⟨rfl, rfl⟩)
      exact ⟨k1, k2.trans hcr⟩
    | false => exact h.mid.finish (v := .bool false) (Or.inr ⟨rfl, rfl⟩)

end Verif.Sched
