import Verif.Crdt.CounterLemmas
import Mathlib.Algebra.BigOperators.Ring.Finset
/-!
# C01, C02, C03: counters and vector clocks

The specification of a counter is `∑ e ∈ F, amount e` over the finite set `F` of operations a copy has
received; it mentions nothing of the implementation.
-/
namespace Verif.Props
open Verif.Crdt Finset

/-! ## C01 — GCounter -/

/-- The amount of the increment behind an event. -/
def incrementOf (w : World GCounter Nat) (e : Ev) : Nat :=
  match w.issue? e with
  | some i => i.op
  | none => 0

/-- In every reachable state of the system, every copy of the counter (at a replica or in the network)
reports the sum of exactly the increments it has received, each counted once. -/
theorem C01_value_is_sum_of_received {w : World GCounter Nat} (h : Reachable GCounter.rdt w)
    {c : Copy GCounter} (hc : w.Live c) (F : Finset Ev) (hF : ∀ e, e ∈ F ↔ e ∈ c.seen) :
    c.state.value = ∑ e ∈ F, incrementOf w e := by
  have := ((gcounter_inv h).live c hc).2
  rw [GCounter.value, CountInv.sum this F hF]
  apply Finset.sum_congr rfl
  intro e _
  simp only [amtOf, incrementOf, id]
  cases w.issue? e <;> rfl

/-- Only finitely many operations are ever received, so the previous theorem always applies. -/
theorem C01_received_finite {w : World GCounter Nat} (h : Reachable GCounter.rdt w)
    {c : Copy GCounter} (hc : w.Live c) : ∃ F : Finset Ev, ∀ e, e ∈ F ↔ e ∈ c.seen :=
  ⟨(seen_finite h c hc).toFinset, fun e => by simp⟩

/-- Copies that have received the same increments report the same value. -/
theorem C01_convergence {w : World GCounter Nat} (h : Reachable GCounter.rdt w) {c d : Copy GCounter}
    (hc : w.Live c) (hd : w.Live d) (same : c.seen = d.seen) : c.state.value = d.state.value := by
  obtain ⟨F, hF⟩ := C01_received_finite h hc
  rw [C01_value_is_sum_of_received h hc F hF, C01_value_is_sum_of_received h hd F (by rw [← same]; exact hF)]

theorem C01_merge_comm (a b : GCounter) : (a.merge b).value = (b.merge a).value :=
  values_sum_congr _ _ (fun k => by simp only [GCounter.merge, getD_mergeCounts, max_comm])

theorem C01_merge_assoc (a b c : GCounter) :
    ((a.merge b).merge c).value = (a.merge (b.merge c)).value :=
  values_sum_congr _ _ (fun k => by simp only [GCounter.merge, getD_mergeCounts, max_assoc])

theorem C01_merge_idem (a b : GCounter) : ((a.merge b).merge b).value = (a.merge b).value :=
  values_sum_congr _ _ (fun k => by simp only [GCounter.merge, getD_mergeCounts, max_assoc, max_self])

theorem C01_merge_self (a : GCounter) : (a.merge a).value = a.value :=
  values_sum_congr _ _ (fun k => by simp only [GCounter.merge, getD_mergeCounts, max_self])

/-- A local increment is visible at once and in full. -/
theorem C01_increment (a : GCounter) (n : Nat) : (a.increment n).value = a.value + n := by
  have h1 := values_sum a.counts (insert a.replicaId a.counts.keys.toFinset) (by
    intro k hk
    by_contra hc
    simp only [mem_insert, List.mem_toFinset, not_or] at hc
    simp [HMap.getD, HMap.get?_eq_none.2 hc.2] at hk)
  have h2 := values_sum (a.increment n).counts (insert a.replicaId a.counts.keys.toFinset) (by
    intro k hk
    by_contra hc
    simp only [mem_insert, List.mem_toFinset, not_or] at hc
    simp only [GCounter.increment, HMap.getD_upsert, hc.1, if_false] at hk
    simp [HMap.getD, HMap.get?_eq_none.2 hc.2] at hk)
  rw [GCounter.value, h2, GCounter.value, h1]
  rw [← Finset.add_sum_erase _ _ (mem_insert_self a.replicaId _),
    ← Finset.add_sum_erase _ (fun k => a.counts.getD k 0) (mem_insert_self a.replicaId _)]
  have : ∀ k ∈ (insert a.replicaId a.counts.keys.toFinset).erase a.replicaId,
      (a.increment n).counts.getD k 0 = a.counts.getD k 0 := by
    intro k hk
    simp only [GCounter.increment, HMap.getD_upsert, (mem_erase.1 hk).1, if_false]
  rw [Finset.sum_congr rfl this]
  simp only [GCounter.increment, HMap.getD_upsert, if_true]
  omega

/-- A concrete run: replica 1 adds 5 and sends, replica 2 adds 7 and merges the message twice. -/
example : ∃ w : World GCounter Nat, Reachable GCounter.rdt w ∧
    (w.node 2).seen = {⟨1, 0⟩, ⟨2, 0⟩} ∧ (w.node 2).state.value = 12 := by
  have s0 := Reachable.start (T := GCounter.rdt)
  have s1 := s0.step (Step.op _ 1 5)
  have s2 := s1.step (Step.send _ 1)
  have s3 := s2.step (Step.op _ 2 7)
  have s4 := s3.step (Step.recv _ 2 ⟨GCounter.increment 5 (GCounter.new 1), {⟨1, 0⟩}⟩
    (by simp [World.start, upd, GCounter.rdt]))
  have s5 := s4.step (Step.recv _ 2 ⟨GCounter.increment 5 (GCounter.new 1), {⟨1, 0⟩}⟩
    (by simp [World.start, upd, GCounter.rdt]))
  refine ⟨_, s5, ?_, ?_⟩
  · simp [World.start, upd, Set.pair_comm]
  · simp [World.start, upd, GCounter.rdt]; decide

/-! ## C02 — PNCounter -/

/-- The signed amount of the operation behind an event. -/
def amountOf (w : World PNCounter PNOp) (e : Ev) : Int :=
  match w.issue? e with
  | some ⟨.inc n, _, _⟩ => n
  | some ⟨.dec n, _, _⟩ => -n
  | none => 0

theorem C02_value_is_sum_of_received {w : World PNCounter PNOp} (h : Reachable PNCounter.rdt w)
    {c : Copy PNCounter} (hc : w.Live c) (F : Finset Ev) (hF : ∀ e, e ∈ F ↔ e ∈ c.seen) :
    c.state.value = ∑ e ∈ F, amountOf w e := by
  have hI := ((pncounter_inv h).live c hc).2
  rw [PNCounter.value, hI.inc.sum F hF, hI.dec.sum F hF]
  push_cast
  rw [← Finset.sum_sub_distrib]
  apply Finset.sum_congr rfl
  intro e _
  simp only [amtOf, amountOf]
  cases hi : w.issue? e with
  | none => simp
  | some i =>
    obtain ⟨o, p, q⟩ := i
    cases o <;> simp [PNOp.incAmt, PNOp.decAmt]

/-- Copies that have received the same operations report the same value. -/
theorem C02_convergence {w : World PNCounter PNOp} (h : Reachable PNCounter.rdt w)
    {c d : Copy PNCounter} (hc : w.Live c) (hd : w.Live d) (same : c.seen = d.seen) :
    c.state.value = d.state.value := by
  have h1 := ((pncounter_inv h).live c hc).2
  have h2 := ((pncounter_inv h).live d hd).2
  rw [PNCounter.value, PNCounter.value]
  rw [values_sum_congr _ _ (h1.inc.unique (by rw [same]; exact h2.inc)),
    values_sum_congr _ _ (h1.dec.unique (by rw [same]; exact h2.dec))]

theorem C02_merge_comm (a b : PNCounter) : (a.merge b).value = (b.merge a).value := by
  simp only [PNCounter.value, PNCounter.merge]
  rw [values_sum_congr (mergeCounts a.increments b.increments) (mergeCounts b.increments a.increments)
      (fun k => by simp only [getD_mergeCounts, max_comm]),
    values_sum_congr (mergeCounts a.decrements b.decrements) (mergeCounts b.decrements a.decrements)
      (fun k => by simp only [getD_mergeCounts, max_comm])]

theorem C02_merge_assoc (a b c : PNCounter) :
    ((a.merge b).merge c).value = (a.merge (b.merge c)).value := by
  simp only [PNCounter.value, PNCounter.merge]
  congr 2
  · exact values_sum_congr _ _ (fun k => by simp only [getD_mergeCounts, max_assoc])
  · exact values_sum_congr _ _ (fun k => by simp only [getD_mergeCounts, max_assoc])

theorem C02_merge_idem (a b : PNCounter) : ((a.merge b).merge b).value = (a.merge b).value := by
  simp only [PNCounter.value, PNCounter.merge]
  congr 2
  · exact values_sum_congr _ _ (fun k => by simp only [getD_mergeCounts, max_assoc, max_self])
  · exact values_sum_congr _ _ (fun k => by simp only [getD_mergeCounts, max_assoc, max_self])

/-- When a delta is handed out, applying it is a full merge, whatever the peer's state is. -/
theorem C02_delta_is_merge (a b : PNCounter) (v : VClock) (d : PNCounterDelta)
    (h : a.deltaSince v = some d) : b.applyDelta d = b.merge a := by
  simp only [PNCounter.deltaSince] at h
  split at h
  · cases h
  · injection h with h; subst h; rfl

/-- A delta is refused only when the peer, identified by its version, already has every operation the
sender has; its value is then unchanged by a full merge. -/
theorem C02_delta_none_covered {w : World PNCounter PNOp} (h : Reachable PNCounter.rdt w)
    {c d : Copy PNCounter} (hc : w.Live c) (hd : w.Live d)
    (hn : c.state.deltaSince d.state.version = none) :
    c.seen ⊆ d.seen ∧ (d.state.merge c.state).value = d.state.value := by
  obtain ⟨g1, h1⟩ := (pncounter_inv h).live c hc
  obtain ⟨g2, h2⟩ := (pncounter_inv h).live d hd
  simp only [PNCounter.deltaSince] at hn
  split at hn
  · next hdom =>
    rw [VClock.dominates_iff] at hdom
    have hsub : c.seen ⊆ d.seen := by
      rintro ⟨r, j⟩ he
      rw [pn_version_seen g1 h1] at he
      rw [pn_version_seen g2 h2]
      exact Nat.lt_of_lt_of_le he (hdom r)
    refine ⟨hsub, ?_⟩
    have hu : d.seen ∪ c.seen = d.seen := Set.union_eq_self_of_subset_right hsub
    simp only [PNCounter.value, PNCounter.merge]
    have i1 := h2.inc.merge h1.inc
    have i2 := h2.dec.merge h1.dec
    rw [hu] at i1 i2
    rw [values_sum_congr _ _ (i1.unique h2.inc), values_sum_congr _ _ (i2.unique h2.dec)]
  · cases hn

/-- …and it is handed out whenever the peer lacks something. -/
theorem C02_delta_some_of_missing {w : World PNCounter PNOp} (h : Reachable PNCounter.rdt w)
    {c d : Copy PNCounter} (hc : w.Live c) (hd : w.Live d) (hn : ¬ c.seen ⊆ d.seen) :
    ∃ δ, c.state.deltaSince d.state.version = some δ ∧
      (d.state.applyDelta δ).value = (d.state.merge c.state).value := by
  cases hh : c.state.deltaSince d.state.version with
  | none => exact absurd (C02_delta_none_covered h hc hd hh).1 hn
  | some δ => exact ⟨δ, rfl, by rw [C02_delta_is_merge _ _ _ _ hh]⟩

example : ∃ w : World PNCounter PNOp, Reachable PNCounter.rdt w ∧
    (w.node 2).seen = {⟨1, 0⟩, ⟨2, 0⟩} ∧ (w.node 2).state.value = -2 ∧
    ¬ (w.node 2).seen ⊆ (w.node 1).seen := by
  have s0 := Reachable.start (T := PNCounter.rdt)
  have s1 := s0.step (Step.op _ 1 (.inc 5))
  have s2 := s1.step (Step.send _ 1)
  have s3 := s2.step (Step.op _ 2 (.dec 7))
  have s4 := s3.step (Step.recv _ 2 ⟨PNCounter.increment 5 (PNCounter.new 1), {⟨1, 0⟩}⟩
    (by simp [World.start, upd, PNCounter.rdt, PNCounter.apply]))
  refine ⟨_, s4, ?_, ?_, ?_⟩
  · simp [World.start, upd, Set.pair_comm]
  · simp [World.start, upd, PNCounter.rdt]; decide
  · simp [World.start, upd, Set.subset_def]

/-! ## C03 — vector clocks -/

theorem C03_dominates_refl (a : VClock) : a.dominates a = true :=
  VClock.dominates_iff.2 (fun _ => Nat.le_refl _)

theorem C03_dominates_trans {a b c : VClock} (h1 : a.dominates b = true) (h2 : b.dominates c = true) :
    a.dominates c = true := by
  rw [VClock.dominates_iff] at *
  exact fun r => Nat.le_trans (h2 r) (h1 r)

/-- Antisymmetric on what clocks report. -/
theorem C03_dominates_antisymm {a b : VClock} (h1 : a.dominates b = true) (h2 : b.dominates a = true) :
    ∀ r, a.get r = b.get r := by
  rw [VClock.dominates_iff] at *
  exact fun r => Nat.le_antisymm (h2 r) (h1 r)

/-- Concurrent exactly when each knows an event the other does not. -/
theorem C03_concurrent_iff (a b : VClock) :
    a.concurrent b = true ↔ (∃ r, a.get r < b.get r) ∧ (∃ r, b.get r < a.get r) := by
  have ha := VClock.dominates_iff (a := a) (b := b)
  have hb := VClock.dominates_iff (a := b) (b := a)
  simp only [VClock.concurrent, Bool.and_eq_true, Bool.not_eq_true']
  rw [← Bool.not_eq_true, ← Bool.not_eq_true, ha, hb]
  simp only [not_forall, Nat.not_le]

/-- `merge` is the least upper bound. -/
theorem C03_merge_lub (a b : VClock) :
    (a.merge b).dominates a = true ∧ (a.merge b).dominates b = true ∧
    ∀ c : VClock, c.dominates a = true → c.dominates b = true → c.dominates (a.merge b) = true := by
  simp only [VClock.dominates_iff, VClock.get_merge]
  exact ⟨fun r => Nat.le_max_left _ _, fun r => Nat.le_max_right _ _,
    fun c h1 h2 r => Nat.max_le.2 ⟨h1 r, h2 r⟩⟩

/-- `increment` advances exactly one entry by one, so the new clock strictly dominates. -/
theorem C03_increment_strict (a : VClock) (r : Rid) :
    (a.increment r).dominates a = true ∧ a.dominates (a.increment r) = false ∧
    a.incrementVal r = (a.increment r).get r ∧ (∀ x, x ≠ r → (a.increment r).get x = a.get x) := by
  refine ⟨?_, ?_, ?_, ?_⟩
  · rw [VClock.dominates_iff]; intro x; rw [VClock.get_increment]; split <;> omega
  · rw [← Bool.not_eq_true, VClock.dominates_iff]; intro h; have := h r
    rw [VClock.get_increment, if_pos rfl] at this; omega
  · rw [VClock.get_increment, if_pos rfl]; rfl
  · intro x hx; rw [VClock.get_increment, if_neg hx]

example : ((VClock.new.increment 1).concurrent (VClock.new.increment 2)) = true := by decide
example : ∃ a b c : VClock, a.dominates b = true ∧ b.dominates c = true ∧ c.dominates b = false :=
  ⟨(VClock.new.increment 1).increment 1, VClock.new.increment 1, VClock.new, by decide⟩

end Verif.Props
