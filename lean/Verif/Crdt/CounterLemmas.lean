import Verif.Crdt.Counters
import Verif.Crdt.WorldInv
import Mathlib.Algebra.BigOperators.Group.Finset.Basic
import Mathlib.Algebra.BigOperators.Group.Finset.Sigma
import Mathlib.Algebra.Order.BigOperators.Group.Finset
namespace Verif.Crdt
open Finset

theorem getD_mergeCounts (a b : HMap Rid Nat) (r : Rid) :
    (mergeCounts a b).getD r 0 = max (a.getD r 0) (b.getD r 0) := by
  rw [mergeCounts, HMap.fold_upsert_getD b a 0 (fun x y => max x y)]
  simp only [HMap.getD]
  cases h : b.get? r <;> simp

theorem values_sum_entries (m : HMap Rid Nat) :
    m.values.sum = ∑ k ∈ m.keys.toFinset, m.getD k 0 := by
  rw [List.sum_toFinset _ (show m.keys.Nodup from m.nodup)]
  have : m.values = m.keys.map (fun k => m.getD k 0) := by
    simp only [HMap.values, HMap.keys, List.map_map]
    apply List.map_congr_left
    rintro ⟨k, v⟩ h
    simp [HMap.getD, HMap.get?_eq_some.2 h]
  rw [this]

theorem values_sum (m : HMap Rid Nat) (s : Finset Rid) (h : ∀ k, m.getD k 0 ≠ 0 → k ∈ s) :
    m.values.sum = ∑ k ∈ s, m.getD k 0 := by
  rw [values_sum_entries]
  have e1 : ∑ k ∈ m.keys.toFinset, m.getD k 0 = ∑ k ∈ m.keys.toFinset ∪ s, m.getD k 0 := by
    apply Finset.sum_subset (Finset.subset_union_left)
    intro x _ hx
    simp only [List.mem_toFinset] at hx
    simp [HMap.getD, HMap.get?_eq_none.2 hx]
  have e2 : ∑ k ∈ s, m.getD k 0 = ∑ k ∈ m.keys.toFinset ∪ s, m.getD k 0 := by
    apply Finset.sum_subset (Finset.subset_union_right)
    intro x _ hx
    by_contra hne
    exact hx (h x hne)
  rw [e1, e2]

theorem values_sum_congr (a b : HMap Rid Nat) (h : ∀ k, a.getD k 0 = b.getD k 0) :
    a.values.sum = b.values.sum := by
  rw [values_sum a (a.keys.toFinset ∪ b.keys.toFinset), values_sum b (a.keys.toFinset ∪ b.keys.toFinset)]
  · exact Finset.sum_congr rfl (fun k _ => h k)
  all_goals
    intro k hk
    simp only [mem_union, List.mem_toFinset]
    by_contra hc
    simp only [not_or] at hc
    simp [HMap.getD, HMap.get?_eq_none.2 hc.1, HMap.get?_eq_none.2 hc.2] at hk

/-- What a counter map holds, in terms of the events received: per replica, a prefix sum. -/
def CountInv (amt : Ev → Nat) (seen : Set Ev) (m : HMap Rid Nat) : Prop :=
  ∀ r, ∃ n, (∀ j, (⟨r, j⟩ : Ev) ∈ seen ↔ j < n) ∧ m.getD r 0 = ∑ j ∈ range n, amt ⟨r, j⟩

theorem CountInv.merge {amt : Ev → Nat} {s t : Set Ev} {a b : HMap Rid Nat} (ha : CountInv amt s a)
    (hb : CountInv amt t b) : CountInv amt (s ∪ t) (mergeCounts a b) := by
  intro r
  obtain ⟨n, hn, en⟩ := ha r
  obtain ⟨m, hm, em⟩ := hb r
  refine ⟨max n m, ?_, ?_⟩
  · intro j; simp only [Set.mem_union, hn, hm]; omega
  · rw [getD_mergeCounts, en, em]
    rcases Nat.le_total n m with h | h
    · rw [max_eq_right h, max_eq_right]
      exact Finset.sum_le_sum_of_subset (range_subset_range.2 h)
    · rw [max_eq_left h, max_eq_left]
      exact Finset.sum_le_sum_of_subset (range_subset_range.2 h)

theorem CountInv.congr {amt amt' : Ev → Nat} {s : Set Ev} {a : HMap Rid Nat} (ha : CountInv amt s a)
    (h : ∀ e ∈ s, amt e = amt' e) : CountInv amt' s a := by
  intro r
  obtain ⟨n, hn, en⟩ := ha r
  refine ⟨n, hn, ?_⟩
  rw [en]
  apply Finset.sum_congr rfl
  intro j hj
  exact h _ ((hn j).2 (mem_range.1 hj))

/-- Adding one own event of amount `k` (zero: the map may be left alone). -/
theorem CountInv.op {amt : Ev → Nat} {s : Set Ev} {a b : HMap Rid Nat} {r n k} (ha : CountInv amt s a)
    (own : ∀ j, (⟨r, j⟩ : Ev) ∈ s ↔ j < n) (hk : amt ⟨r, n⟩ = k)
    (hb : ∀ x, b.getD x 0 = if x = r then a.getD x 0 + k else a.getD x 0) :
    CountInv amt (insert ⟨r, n⟩ s) b := by
  intro x
  by_cases e : x = r
  · subst e
    obtain ⟨m, hm, em⟩ := ha x
    have : m = n := by
      rcases Nat.lt_trichotomy m n with h | h | h
      · have := (hm m).1 ((own m).2 h); omega
      · exact h
      · have := (own n).1 ((hm n).2 h); omega
    subst this
    refine ⟨m + 1, ?_, ?_⟩
    · intro j; simp only [Set.mem_insert_iff, Ev.mk.injEq, true_and, own]; omega
    · rw [hb, if_pos rfl, sum_range_succ, hk, em]
  · obtain ⟨m, hm, em⟩ := ha x
    refine ⟨m, ?_, ?_⟩
    · intro j; simp only [Set.mem_insert_iff, Ev.mk.injEq, e, false_and, false_or, hm]
    · rw [hb, if_neg e, em]

theorem CountInv.sum {amt : Ev → Nat} {s : Set Ev} {a : HMap Rid Nat} (ha : CountInv amt s a)
    (F : Finset Ev) (hF : ∀ e, e ∈ F ↔ e ∈ s) : a.values.sum = ∑ e ∈ F, amt e := by
  have key : ∀ r, a.getD r 0 = ∑ e ∈ F with e.rid = r, amt e := by
    intro r
    obtain ⟨n, hn, en⟩ := ha r
    rw [en]
    apply Finset.sum_bij (fun j _ => (⟨r, j⟩ : Ev))
    · intro j hj; simp only [mem_filter, hF, hn, and_true]; exact mem_range.1 hj
    · intro i _ j _ h; injection h
    · rintro ⟨r', j⟩ h
      simp only [mem_filter, hF] at h
      obtain ⟨h1, rfl⟩ := h
      exact ⟨j, mem_range.2 ((hn j).1 h1), rfl⟩
    · intro j _; rfl
  rw [values_sum a (F.image Ev.rid)]
  · rw [← Finset.sum_fiberwise_of_maps_to (g := Ev.rid) (t := F.image Ev.rid)
      (fun e he => mem_image_of_mem _ he)]
    exact Finset.sum_congr rfl (fun r _ => key r)
  · intro r hr
    rw [key] at hr
    by_contra hc
    apply hr
    apply Finset.sum_eq_zero
    intro e he
    simp only [mem_filter] at he
    exact absurd (mem_image.2 ⟨e, he.1, he.2⟩) hc

theorem CountInv.unique {amt : Ev → Nat} {s : Set Ev} {a b : HMap Rid Nat} (ha : CountInv amt s a)
    (hb : CountInv amt s b) (r : Rid) : a.getD r 0 = b.getD r 0 := by
  obtain ⟨n, hn, en⟩ := ha r
  obtain ⟨m, hm, em⟩ := hb r
  have : m = n := by
    rcases Nat.lt_trichotomy m n with h | h | h
    · have := (hm m).1 ((hn m).2 h); omega
    · exact h
    · have := (hn n).1 ((hm n).2 h); omega
  subst this
  rw [en, em]

/-- amount carried by an event, from the issue table -/
def amtOf {S Op : Type} (f : Op → Nat) (iss : Iss S Op) (e : Ev) : Nat :=
  match iss e with
  | some i => f i.op
  | none => 0

theorem amtOf_add {S Op : Type} (f : Op → Nat) (iss : Iss S Op) {e : Ev} (i : Issue S Op)
    {c : Copy S} (g : Good iss c) (he : iss e = none) :
    ∀ x ∈ c.seen, amtOf f iss x = amtOf f (iss.add e i) x := by
  intro x hx
  have : x ≠ e := by rintro rfl; exact g.not_mem he hx
  simp only [amtOf, Iss.add_ne _ _ this]

def gInv (iss : Iss GCounter Nat) (c : Copy GCounter) : Prop :=
  CountInv (amtOf id iss) c.seen c.state.counts

theorem gcounter_inv {w} (h : Reachable GCounter.rdt w) :
    WInv GCounter.rdt gInv (fun r s => s.replicaId = r) w := by
  apply reach_inv _ _ _ _ _ _ _ h
  · intro r x; exact ⟨0, by simp, rfl⟩
  · intro r; rfl
  · intro iss e i c _ g he hI
    exact CountInv.congr hI (amtOf_add id iss i g he)
  · intro iss c r o n _ _ own _ _ hI hJ
    refine ⟨CountInv.op hI own (k := o) (by simp [amtOf]) ?_, hJ⟩
    intro x
    simp only [GCounter.rdt, GCounter.increment, HMap.getD_upsert, hJ]
  · intro iss c d r _ _ _ hc hd hJ
    exact ⟨CountInv.merge hc hd, hJ⟩

def PNOp.incAmt : PNOp → Nat
  | .inc n => n
  | .dec _ => 0
def PNOp.decAmt : PNOp → Nat
  | .inc _ => 0
  | .dec n => n

structure pnInv (iss : Iss PNCounter PNOp) (c : Copy PNCounter) : Prop where
  inc : CountInv (amtOf PNOp.incAmt iss) c.seen c.state.increments
  dec : CountInv (amtOf PNOp.decAmt iss) c.seen c.state.decrements
  ver : CountInv (amtOf (fun _ => 1) iss) c.seen c.state.version.entries

theorem pncounter_inv {w} (h : Reachable PNCounter.rdt w) :
    WInv PNCounter.rdt pnInv (fun r s => s.replicaId = r) w := by
  apply reach_inv _ _ _ _ _ _ _ h
  · intro r; exact ⟨fun x => ⟨0, by simp, rfl⟩, fun x => ⟨0, by simp, rfl⟩, fun x => ⟨0, by simp, rfl⟩⟩
  · intro r; rfl
  · intro iss e i c _ g he hI
    exact ⟨hI.inc.congr (amtOf_add _ iss i g he), hI.dec.congr (amtOf_add _ iss i g he),
      hI.ver.congr (amtOf_add _ iss i g he)⟩
  · intro iss c r o n _ _ own _ _ hI hJ
    cases o with
    | inc k =>
      refine ⟨⟨?_, ?_, ?_⟩, hJ⟩
      · refine hI.inc.op own (k := k) (by simp [amtOf, PNOp.incAmt]) ?_
        intro x; simp only [PNCounter.rdt, PNCounter.apply, PNCounter.increment, HMap.getD_upsert, hJ]
      · refine hI.dec.op own (k := 0) (by simp [amtOf, PNOp.decAmt]) ?_
        intro x; simp [PNCounter.rdt, PNCounter.apply, PNCounter.increment]
      · refine hI.ver.op own (k := 1) (by simp [amtOf]) ?_
        intro x
        simp only [PNCounter.rdt, PNCounter.apply, PNCounter.increment, hJ, VClock.increment,
          HMap.getD_upsert]
    | dec k =>
      refine ⟨⟨?_, ?_, ?_⟩, hJ⟩
      · refine hI.inc.op own (k := 0) (by simp [amtOf, PNOp.incAmt]) ?_
        intro x; simp [PNCounter.rdt, PNCounter.apply, PNCounter.decrement]
      · refine hI.dec.op own (k := k) (by simp [amtOf, PNOp.decAmt]) ?_
        intro x; simp only [PNCounter.rdt, PNCounter.apply, PNCounter.decrement, HMap.getD_upsert, hJ]
      · refine hI.ver.op own (k := 1) (by simp [amtOf]) ?_
        intro x
        simp only [PNCounter.rdt, PNCounter.apply, PNCounter.decrement, hJ, VClock.increment,
          HMap.getD_upsert]
  · intro iss c d r _ _ _ hc hd hJ
    exact ⟨⟨hc.inc.merge hd.inc, hc.dec.merge hd.dec, hc.ver.merge hd.ver⟩, hJ⟩

/-- the number of events received from a replica is its version entry -/
theorem pn_version_seen {iss : Iss PNCounter PNOp} {c : Copy PNCounter} (g : Good iss c)
    (h : pnInv iss c) (r j : Nat) : (⟨r, j⟩ : Ev) ∈ c.seen ↔ j < c.state.version.get r := by
  obtain ⟨n, hn, en⟩ := h.ver r
  have : ∑ j ∈ range n, amtOf (fun _ => 1) iss ⟨r, j⟩ = n := by
    rw [Finset.sum_congr rfl (g := fun _ => 1)]
    · simp
    · intro j hj
      obtain ⟨i, hi, _⟩ := g.issued _ ((hn j).2 (mem_range.1 hj))
      simp [amtOf, hi]
  rw [hn, VClock.get, en, this]

end Verif.Crdt
