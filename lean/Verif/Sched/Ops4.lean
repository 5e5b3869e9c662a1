import Verif.Sched.Ops3
/-!
# Every step preserves the invariant: close, abort, select
-/

namespace Verif.Sched
variable {B : Type}

/-! ## Close -/

theorem wakeClosedAll_ok {c : Nat} (rs : List Nat) : ∀ {s : State B}, rs.Nodup → closedIn s c →
    (∀ r ∈ rs, ∃ st clk sl, Loose s r st clk sl ∧ WaitsOn c st ∧ regOf s r = dropRecv c (waitReg clk st)) →
    Calm s (s.wakeClosedAll c rs) ∧ (s.wakeClosedAll c rs).log = s.log ∧
    (∀ t, t ∉ rs → Same s (s.wakeClosedAll c rs) t) ∧ (∀ r ∈ rs, Status (s.wakeClosedAll c rs) r) := by
  induction rs with
  | nil =>
    intro s _ _ _
    exact ⟨Calm.refl _, rfl, fun t _ => Same.refl _ _, fun w hw => absurd hw (List.not_mem_nil)⟩
  | cons w ws ih =>
    intro s hnd hcl hl
    obtain ⟨hw, hnd⟩ := List.nodup_cons.mp hnd
    obtain ⟨st, clk, sl, l1, l2, l3⟩ := hl w (by simp)
    obtain ⟨k1, k2, k3, k4⟩ := wakeClosed_ok l1 l2 l3 hcl
    obtain ⟨i1, i2, i3, i4⟩ := ih (s := s.wakeClosed w c) hnd (hcl.mono k1.mono) (by
      intro v hv
      have hvw : v ≠ w := by rintro rfl; exact hw hv
      obtain ⟨st', clk', sl', m1, m2, m3⟩ := hl v (by simp [hv])
      exact ⟨st', clk', sl', m1.frame (k2 v hvw), m2, (k2 v hvw).reg.trans m3⟩)
    refine ⟨k1.trans i1, i2.trans k4, ?_, ?_⟩
    · intro t ht
      simp only [List.mem_cons, not_or] at ht
      exact (k2 t ht.1).trans (i3 t ht.2)
    · intro v hv
      simp only [List.mem_cons] at hv
      rcases hv with rfl | hv
      · exact k3.frame i1.mono (i3 v hw)
      · exact i4 v hv

theorem close_inv {s : State B} {x c : Nat} (h : Pre s x (.close c)) (hok : StepOk s x (.close c)) {s2 : State B}
    (hs2 : s2 = (s.doClose c).markReady x .nothing) : Inv s2 ∧ s2.crashed = s.crashed := by
  obtain ⟨ch, hc⟩ := Option.isSome_iff_exists.mp hok
  have hm := modChan_mono hc (fun ch => { ch with closed := true, receivers := [] }) rfl (fun _ => rfl)
  have hchan := modChan_chan hc (fun ch => { ch with closed := true, receivers := [] })
  have hcore : Core (s.modChan c fun ch => { ch with closed := true, receivers := [] }) := h.core.modChan hc _
  have hreg := fun t => modChan_reg hc (fun ch => { ch with closed := true, receivers := [] }) t
  have hsome := modChan_some hc (fun ch => { ch with closed := true, receivers := [] })
  have hsame : ∀ t, t ∉ ch.receivers → Same s (s.modChan c fun ch => { ch with closed := true, receivers := [] }) t := by
    intro t ht
    exact modChan_same hc _ (by simp [List.count_eq_zero.mpr ht]) rfl
  have hf : (s.modChan c fun ch => { ch with closed := true, receivers := [] }).log = s.log ∧
      (s.modChan c fun ch => { ch with closed := true, receivers := [] }).results = s.results ∧
      (s.modChan c fun ch => { ch with closed := true, receivers := [] }).crashed = s.crashed ∧
      (s.modChan c fun ch => { ch with closed := true, receivers := [] }).tasks = s.tasks ∧
      closedIn (s.modChan c fun ch => { ch with closed := true, receivers := [] }) c := by
    rw [hsome]; exact ⟨rfl, rfl, rfl, rfl, _, upd_same _ _ _, rfl⟩
  have hd : s.doClose c = (s.modChan c fun ch => { ch with closed := true, receivers := [] }).wakeClosedAll c
      ch.receivers := by rw [State.doClose, chan_some hc]
  rw [hd] at hs2
  clear hsome hd
  generalize (s.modChan c fun ch => { ch with closed := true, receivers := [] }) = s0 at *
  obtain ⟨f1, f2, f3, f4, f5⟩ := hf
  have hxr : ∀ r ∈ ch.receivers, r ≠ x := fun r hr => run_ne h.run (c := c) (by rw [chan_some hc]; exact hr)
  have hblk : ∀ r ∈ ch.receivers, _ := fun r hr =>
    receiver_blocked (c := c) (h.status r (hxr r hr)) (by rw [chan_some hc]; exact hr)
  have hnd : ch.receivers.Nodup := by
    rw [List.nodup_iff_count]
    intro w
    by_cases hw : w ∈ ch.receivers
    · obtain ⟨_, _, _, _, _, _, e⟩ := hblk w hw
      rw [chan_some hc] at e; omega
    · rw [List.count_eq_zero.mpr hw]; omega
  obtain ⟨k1, k2, k3, k4⟩ := wakeClosedAll_ok (s := s0) ch.receivers hnd f5 (by
    intro r hr
    obtain ⟨st, clk, sl, l1, l2, l3, _⟩ := hblk r hr
    refine ⟨st, clk, sl, ⟨by rw [f4]; exact l1.slot, l1.arms, l1.ctx, by rw [f1]; exact l1.poll,
      by rw [f1]; exact l1.since, by rw [f2]; exact l1.res⟩, l2, ?_⟩
    rw [hreg, l3]
    have hsend : ((waitReg clk st).send) c = (ch.senders.filter (·.1 = r)).map (·.2) := by
      rw [← l3]; simp [regOf, chan_some hc]
    simp only [dropRecv, List.count_nil]
    rw [upd_self _ _ _ hsend])
  generalize s0.wakeClosedAll c ch.receivers = s1 at *
  subst hs2
  have hx : x ∉ ch.receivers := fun hr => hxr x hr rfl
  have hmid : Mid s1 x (.close c) s.clock [] {} := by
    refine ⟨?_, h.run.frame ((hsame x hx).trans (k3 x hx)), ?_, ?_, hcore.calm k1⟩
    · intro t ht
      by_cases htr : t ∈ ch.receivers
      · exact k4 t htr
      · exact (h.status t ht).frame (hm.trans k1.mono) ((hsame t htr).trans (k3 t htr))
    · intro k
      refine ChanOk.calm ?_ k1
      rw [hchan]
      split
      · have hcc := h.chans c
        rw [chan_some hc] at hcc
        exact ⟨hcc.bound, fun hn => absurd rfl hn, hcc.send⟩
      · exact h.chans k
    · refine h.ledger.quiet (k2.trans f1) (k1.results.trans f2) ?_
      intro k
      obtain ⟨_, a2, a3, _⟩ := k1.chans k
      rw [a2, a3, hchan]
      split
      · next hk => rw [hk, chan_some hc]; exact ⟨rfl, rfl⟩
      · exact ⟨rfl, rfl⟩
  obtain ⟨g1, g2⟩ := hmid.finish (v := .nothing) ⟨rfl, rfl, f5.mono k1.mono⟩
  exact ⟨g1, g2.trans (k1.crashed.trans f3)⟩

/-! ## Abort -/

theorem purge_chan (s : State B) (u c : Nat) : (s.purge u).chan c =
    { s.chan c with receivers := (s.chan c).receivers.filter (· ≠ u), senders := (s.chan c).senders.filter (·.1 ≠ u) } := by
  simp only [State.chan, State.purge]
  cases s.chans c <;> simp

theorem purge_same (s : State B) {u t : Nat} (h : t ≠ u) : Same s (s.purge u) t := by
  refine ⟨rfl, ?_, rfl, rfl, rfl⟩
  simp only [regOf, purge_chan, Reg.mk.injEq]
  refine ⟨count_filter_ne h, ?_, ?_, ?_, ?_⟩
  · funext c; exact count_filter_ne h
  · funext c; rw [filter_filter_ne _ (fun y : Nat × Payload => y.1) h]
  · show List.map _ (List.filter _ (List.filter _ _)) = _
    rw [filter_filter_ne _ (fun y : Timer => y.tid) h]
  · funext k; exact count_filter_ne h

theorem purge_reg (s : State B) (u : Nat) : regOf (s.purge u) u = {} := by
  simp only [regOf, purge_chan, Reg.mk.injEq]
  refine ⟨count_filter_self _ _, ?_, ?_, ?_, ?_⟩
  · funext c; exact count_filter_self _ _
  · funext c; rw [filter_filter_self _ (fun y : Nat × Payload => y.1)]; rfl
  · show List.map _ (List.filter _ (List.filter _ _)) = _
    rw [filter_filter_self _ (fun y : Timer => y.tid)]; rfl
  · funext k; exact count_filter_self _ _

theorem purge_mono (s : State B) (u : Nat) : Mono s (s.purge u) := by
  refine ⟨rfl, rfl, fun _ _ h => h, ?_, fun _ sl h => ⟨sl, h⟩⟩
  intro c ch h
  exact ⟨{ ch with receivers := ch.receivers.filter (· ≠ u), senders := ch.senders.filter (·.1 ≠ u) },
    by simp only [State.purge, h, Option.map_some], rfl, id⟩

theorem purge_core {s : State B} (h : Core s) (u : Nat) : Core (s.purge u) := by
  refine ⟨h.taskLt, ?_, ?_, ?_, ?_⟩
  · intro c hc
    refine h.chanLt c ?_
    simpa [State.purge] using hc
  · intro k hk
    have := h.awDone k hk
    simp [State.purge, this]
  · intro k hk
    refine h.awTask k ?_
    intro e; apply hk
    simp [State.purge, e]
  · intro e he
    simp only [State.purge, List.mem_filter] at he
    exact h.timers e he.1

theorem purge_chanOk {s : State B} {u c : Nat} (h : ChanOk (s.chan c)) : ChanOk ((s.purge u).chan c) := by
  rw [purge_chan]
  refine ⟨h.bound, ?_, ?_⟩
  · intro hn
    have : (s.chan c).receivers ≠ [] := by intro e; apply hn; simp [e]
    obtain ⟨a, b, d⟩ := h.recv this
    exact ⟨a, by simp [b], d⟩
  · intro hn
    have : (s.chan c).senders ≠ [] := by intro e; apply hn; simp [e]
    exact h.send this

/-- Aborting drops the books' claims on the aborted task's parked values. -/
theorem LedgerAt.abort {na na' : Nat × Payload → Bool} {c u : Nat} {log : List (Ev B)} {q : List Payload}
    {sn : List (Nat × Payload)} (h : LedgerAt na c log q sn) (hna : ∀ y, na' y = (na y && decide (y.1 ≠ u))) :
    LedgerAt na' c log q (sn.filter (·.1 ≠ u)) := by
  have hn : na' = fun y => (na y && decide (y.1 ≠ u)) := funext hna
  refine ⟨h.values, ?_, ?_⟩
  · have := congrArg (List.filter (fun y : Nat × Payload => decide (y.1 ≠ u))) h.live
    rw [List.filter_filter, List.filter_filter] at this
    have e : (fun y : Nat × Payload => decide (y.1 ≠ u) && na y) = na' := by
      funext y; rw [hna, Bool.and_comm]
    rw [e] at this
    rw [this, List.filter_append, List.filter_append, List.filter_filter]
    congr 2
    funext y
    rw [hna]
    cases na y <;> simp
  · exact ((List.Sublist.refl _).append List.filter_sublist).trans h.order

theorem doAbort_mid {s : State B} {x u : Nat} (h : Pre s x (.abort u)) (hux : u ≠ x) :
    Mid (s.doAbort u) x (.abort u) s.clock [] {} ∧ (s.doAbort u).crashed = s.crashed := by
  unfold State.doAbort
  cases hr : s.results u with
  | some r => exact ⟨h.mid, rfl⟩
  | none =>
    have hmain : ∀ sl, s.tasks u = some sl →
        Mid (((s.purge u).park u .done).complete u .aborted) x (.abort u) s.clock [] {} ∧
        (((s.purge u).park u .done).complete u .aborted).crashed = s.crashed := by
      intro sl hsl
      have hsl' : (s.purge u).tasks u = some sl := hsl
      have hp := park_some hsl' .done
      have hcalm : Calm (s.purge u) ((s.purge u).park u .done) := modTask_calm hsl' _
      have hsame : ∀ t, t ≠ u → Same s ((s.purge u).park u .done) t := fun t ht =>
        (purge_same s ht).trans (modTask_same hsl' _ ht)
      have hm : Mono s ((s.purge u).park u .done) := (purge_mono s u).trans hcalm.mono
      have hreg : regOf ((s.purge u).park u .done) u = {} := by rw [hp]; exact purge_reg s u
      have hslot : ((s.purge u).park u .done).tasks u = some { sl with state := .done } := by
        rw [hp]; exact upd_same _ _ _
      have hch : ∀ k, ChanOk (((s.purge u).park u .done).chan k) := fun k => (purge_chanOk (h.chans k)).calm hcalm
      have hcore := (purge_core h.core u).calm hcalm
      have hf : ((s.purge u).park u .done).log = s.log ∧ ((s.purge u).park u .done).results = s.results ∧
          ((s.purge u).park u .done).crashed = s.crashed := by rw [hp]; exact ⟨rfl, rfl, rfl⟩
      have hchan : ∀ k, ((s.purge u).park u .done).chan k = (s.purge u).chan k := by intro k; rw [hp]; rfl
      clear hp hcalm
      generalize (s.purge u).park u .done = s1 at *
      obtain ⟨f1, f2, f3⟩ := hf
      have hrunx : Run s1 x (.abort u) s.clock [] {} := h.run.frame (hsame x (Ne.symm hux))
      have hxaw : x ∉ s1.awaiters u := by
        intro hmem
        have : (regOf s1 x).awaits u = 0 := by rw [hrunx.reg]
        exact absurd (List.count_pos_iff.mpr hmem) (by simp only [regOf] at this; omega)
      obtain ⟨c1, _, c3, _, c5, c6, c7, c8, c9, c10⟩ := complete_ok (s := s1) (x := u) (r := .aborted)
        (P := fun t => t ≠ x) (fun t htx htu => (h.status t htx).frame hm (hsame t htu))
        (fun w hw => by rintro rfl; exact hxaw hw) ⟨_, hslot, rfl⟩ hreg (by rw [f2]; exact hr) hcore
      refine ⟨⟨fun t ht => c1 t ht, hrunx.frame (c3 x hxaw (Ne.symm hux)), c6 hch, ?_, c7⟩, c8.trans f3⟩
      intro k
      have hn : ∀ y, notAborted (s1.complete u .aborted) y = (notAborted s y && decide (y.1 ≠ u)) := by
        intro y
        simp only [notAborted, c10, f2]
        by_cases hy : y.1 = u
        · rw [hy, upd_same]; simp
        · rw [upd_ne _ _ hy]; simp [hy]
      rw [c9, f1, (c5 k).1, (c5 k).2, hchan, purge_chan]
      exact (h.ledger k).abort hn
    cases hst : s.tasks u with
    | none => simp only [State.stateOf, hst]; exact ⟨h.mid, trivial⟩
    | some sl =>
      simp only [State.stateOf, hst]
      cases hss : sl.state with
      | done => exact ⟨h.mid, rfl⟩
      | _ => exact hmain sl hst

theorem abort_inv {s : State B} {x u : Nat} (h : Pre s x (.abort u)) (hok : StepOk s x (.abort u)) {s2 : State B}
    (hs2 : s2 = (s.doAbort u).markReady x .nothing) : Inv s2 ∧ s2.crashed = s.crashed := by
  obtain ⟨k1, k2⟩ := doAbort_mid h hok
  subst hs2
  obtain ⟨g1, g2⟩ := k1.finish (v := .nothing) ⟨rfl, rfl⟩
  exact ⟨g1, g2.trans k2⟩

end Verif.Sched
