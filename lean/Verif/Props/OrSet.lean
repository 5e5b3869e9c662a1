import Verif.Crdt.OrMapValues
import Mathlib.Data.Nat.Lattice
/-!
# C07, C08, C09, C67: observed-remove sets and maps, and their deltas
-/
namespace Verif.Props
open Verif.Crdt

/-! ## C07 — add-wins OR-Set -/

/-- The observed-remove rule: some received add of `x` was not seen by any received remove of `x`. -/
def AddWinsMember {T : Type} (w : World (ORSet T) (SetOp T)) (seen : Set Ev) (x : T) : Prop :=
  ∃ e ∈ seen, (∃ i, w.issue? e = some i ∧ i.op = .add x) ∧
    ∀ f ∈ seen, ∀ i, w.issue? f = some i → i.op = .remove x → e ∉ i.past

theorem SetOp.kind_add {T : Type} (o : SetOp T) (x : T) : o.kind = .add x ↔ o = .add x := by
  cases o <;> simp [SetOp.kind]
theorem SetOp.kind_rem {T : Type} (o : SetOp T) (x : T) : o.kind = .rem x ↔ o = .remove x := by
  cases o <;> simp [SetOp.kind]

/-- Membership at every copy, in every execution, is the observed-remove rule. -/
theorem C07_member_iff {T : Type} [DecidableEq T] {w : World (ORSet T) (SetOp T)}
    (h : Reachable (ORSet.rdt addWins) w) {c : Copy (ORSet T)} (hc : w.Live c) (x : T) :
    c.state.contains x = true ↔ AddWinsMember w c.seen x := by
  have hI := ((dotStore_inv orsetStore h).live c hc).2
  rw [ORSet.contains_iff]
  constructor
  · rintro ⟨d, hd⟩
    obtain ⟨e, ⟨h1, ⟨i, h2, h3⟩, h4⟩, _⟩ := (hI.dots x d).1 hd
    exact ⟨e, h1, ⟨i, h2, (SetOp.kind_add _ _).1 h3⟩,
      fun f hf i hi hr => h4 f hf i hi ((SetOp.kind_rem _ _).2 hr)⟩
  · rintro ⟨e, h1, ⟨i, h2, h3⟩, h4⟩
    exact ⟨_, (hI.dots x _).2 ⟨e, ⟨h1, ⟨i, h2, (SetOp.kind_add _ _).2 h3⟩,
      fun f hf i hi hr => h4 f hf i hi ((SetOp.kind_rem _ _).1 hr)⟩, rfl⟩⟩

/-- Copies that have received the same updates have the same members, whatever the order, grouping
and repetition of the merges that brought them there. -/
theorem C07_convergence {T : Type} [DecidableEq T] {w : World (ORSet T) (SetOp T)}
    (h : Reachable (ORSet.rdt addWins) w) {c d : Copy (ORSet T)} (hc : w.Live c) (hd : w.Live d)
    (same : c.seen = d.seen) (x : T) : c.state.contains x = d.state.contains x := by
  rw [Bool.eq_iff_iff, C07_member_iff h hc, C07_member_iff h hd, same]

/-- An add that a received remove has not seen survives that remove: add wins. -/
theorem C07_concurrent_add_survives {T : Type} [DecidableEq T] {w : World (ORSet T) (SetOp T)}
    (h : Reachable (ORSet.rdt addWins) w) {c : Copy (ORSet T)} (hc : w.Live c) (x : T) {e : Ev}
    (he : e ∈ c.seen) {i} (hi : w.issue? e = some i) (ha : i.op = .add x)
    (hconc : ∀ f ∈ c.seen, ∀ j, w.issue? f = some j → j.op = .remove x → e ∉ j.past) :
    c.state.contains x = true :=
  (C07_member_iff h hc x).2 ⟨e, he, ⟨i, hi, ha⟩, hconc⟩

/-- A remove deletes every add it has seen: if each received add of `x` was seen by a received remove
of `x`, it is gone. -/
theorem C07_remove_deletes_seen {T : Type} [DecidableEq T] {w : World (ORSet T) (SetOp T)}
    (h : Reachable (ORSet.rdt addWins) w) {c : Copy (ORSet T)} (hc : w.Live c) (x : T)
    (hcov : ∀ e ∈ c.seen, ∀ i, w.issue? e = some i → i.op = .add x →
      ∃ f ∈ c.seen, ∃ j, w.issue? f = some j ∧ j.op = .remove x ∧ e ∈ j.past) :
    c.state.contains x = false := by
  rw [← Bool.not_eq_true, C07_member_iff h hc]
  rintro ⟨e, h1, ⟨i, h2, h3⟩, h4⟩
  obtain ⟨f, hf, j, hj, hr, hm⟩ := hcov e h1 i h2 h3
  exact h4 f hf j hj hr hm

/-- Merging commutes on membership for arbitrary states. -/
theorem C07_merge_comm {T : Type} [DecidableEq T] (a b : ORSet T) (x : T) :
    (a.merge addWins b).contains x = (b.merge addWins a).contains x := by
  rw [Bool.eq_iff_iff, ORSet.contains_iff, ORSet.contains_iff]
  simp only [ORSet.dots_merge, ORSet.mem_mergeDots_addWins, ORSet.Kept]
  constructor <;> (rintro ⟨d, hd⟩; exact ⟨d, hd.symm⟩)

theorem C07_merge_idem {T : Type} [DecidableEq T] (a : ORSet T) (x : T) :
    (a.merge addWins a).contains x = a.contains x := by
  rw [Bool.eq_iff_iff, ORSet.contains_iff, ORSet.contains_iff]
  simp only [ORSet.dots_merge, ORSet.mem_mergeDots_addWins, ORSet.Kept]
  constructor
  · rintro ⟨d, hd⟩; exact ⟨d, by tauto⟩
  · rintro ⟨d, hd⟩; exact ⟨d, by tauto⟩

/-- Local operations: an added element is a member, a removed one is not, others do not change. -/
theorem C07_add {T : Type} [DecidableEq T] (a : ORSet T) (x y : T) :
    (a.add x).contains y = (decide (y = x) || a.contains y) := by
  rw [Bool.eq_iff_iff]
  simp only [ORSet.contains_iff, ORSet.dots_add, Bool.or_eq_true, decide_eq_true_eq]
  constructor
  · rintro ⟨d, h | ⟨h, _⟩⟩
    · exact Or.inr ⟨d, h⟩
    · exact Or.inl h
  · rintro (h | ⟨d, h⟩)
    · exact ⟨_, Or.inr ⟨h, rfl⟩⟩
    · exact ⟨d, Or.inl h⟩

theorem C07_remove {T : Type} [DecidableEq T] (a : ORSet T) (x y : T) :
    (a.remove x).contains y = (decide (y ≠ x) && a.contains y) := by
  rw [Bool.eq_iff_iff]
  simp only [ORSet.contains_iff, ORSet.dots_remove, Bool.and_eq_true, decide_eq_true_eq]
  constructor
  · rintro ⟨d, h1, h2⟩; exact ⟨h1, d, h2⟩
  · rintro ⟨h1, d, h2⟩; exact ⟨d, h1, h2⟩

/-- Enumeration lists the members, each once, and `len` counts them. -/
theorem C07_iter {T : Type} [DecidableEq T] (a : ORSet T) :
    (∀ x, x ∈ a.iter ↔ a.contains x = true) ∧ a.iter.Nodup ∧ a.len = a.iter.length := by
  have nd : (a.entries.entries.map Prod.fst).Nodup := a.entries.nodup
  refine ⟨?_, ?_, ?_⟩
  · intro x
    simp only [ORSet.iter, List.mem_map, List.mem_filter, ORSet.contains]
    constructor
    · rintro ⟨⟨k, ds⟩, ⟨h1, h2⟩, rfl⟩
      have : a.entries.get? k = some ds := HMap.get?_eq_some.2 h1
      simp only [this]; exact h2
    · intro h
      cases hg : a.entries.get? x with
      | none => simp [hg] at h
      | some ds =>
        simp only [hg] at h
        exact ⟨(x, ds), ⟨HMap.get?_eq_some.1 hg, h⟩, rfl⟩
  · exact (List.filter_sublist.map Prod.fst).nodup nd
  · simp only [ORSet.len, ORSet.iter, HMap.values, List.length_map, List.filter_map]
    rfl

/-- replica 1 adds `7`, replica 2 concurrently adds `7` and removes it: after exchange, `7` is in -/
example : ∃ w : World (ORSet Nat) (SetOp Nat), Reachable (ORSet.rdt addWins) w ∧
    (w.node 1).seen = {⟨1, 0⟩, ⟨2, 0⟩, ⟨2, 1⟩} ∧ (w.node 1).state.contains 7 = true ∧
    (w.node 2).state.contains 7 = false := by
  have s0 := Reachable.start (T := ORSet.rdt (T := Nat) addWins)
  have s1 := s0.step (Step.op _ 1 (.add 7))
  have s2 := s1.step (Step.op _ 2 (.add 7))
  have s3 := s2.step (Step.op _ 2 (.remove 7))
  have s4 := s3.step (Step.send _ 2)
  have s5 := s4.step (Step.recv _ 1 _ (Set.mem_insert _ _))
  refine ⟨_, s5, ?_, ?_, ?_⟩
  · simp only [World.start, upd_same, List.nil_append, List.length_nil]
    ext x
    simp [upd]; tauto
  · decide
  · decide

/-! ## C08 — remove-wins OR-Set -/

/-- The full statement fails: two replicas that have received the same three updates disagree. -/
theorem C08_diverges : ∃ w : World (ORSet Nat) (SetOp Nat), Reachable (ORSet.rdt removeWins) w ∧
    (w.node 1).seen = (w.node 3).seen ∧
    (w.node 1).state.contains 7 = true ∧ (w.node 3).state.contains 7 = false := by
  have s0 := Reachable.start (T := ORSet.rdt (T := Nat) removeWins)
  have s1 := s0.step (Step.op _ 2 (.add 7))
  have s2 := s1.step (Step.send _ 2)
  have s3 := s2.step (Step.op _ 2 (.remove 7))
  have s4 := s3.step (Step.send _ 2)
  have s5 := s4.step (Step.op _ 1 (.add 7))
  have s6 := s5.step (Step.send _ 1)
  -- replica 1: first the state after the remove, then the older one
  have s7 := s6.step (Step.recv _ 1 _ (Set.mem_insert_of_mem _ (Set.mem_insert _ _)))
  have s8 := s7.step (Step.recv _ 1 _ (Set.mem_insert_of_mem _ (Set.mem_insert_of_mem _ (Set.mem_insert _ _))))
  -- replica 3: replica 1's add, then replica 2's add, then the state after the remove
  have s9 := s8.step (Step.recv _ 3 _ (Set.mem_insert _ _))
  have s10 := s9.step (Step.recv _ 3 _ (Set.mem_insert_of_mem _ (Set.mem_insert_of_mem _ (Set.mem_insert _ _))))
  have s11 := s10.step (Step.recv _ 3 _ (Set.mem_insert_of_mem _ (Set.mem_insert _ _)))
  refine ⟨_, s11, ?_, ?_, ?_⟩
  · ext x
    simp [World.start, upd]
  · decide
  · decide

/-- Two replicas agree after exchanging states with each other. Missing for the full statement: three or
more copies, where the order matters (`C08_diverges`). -/
theorem C08_merge_comm_partial {T : Type} [DecidableEq T] (a b : ORSet T) (x : T) :
    (a.merge removeWins b).contains x = (b.merge removeWins a).contains x := by
  rw [Bool.eq_iff_iff, ORSet.contains_iff, ORSet.contains_iff]
  simp only [ORSet.dots_merge, ORSet.mem_mergeDots, ORSet.Kept, removeWins, Bool.or_comm]
  constructor
  · rintro ⟨d, h1, h2⟩
    refine ⟨d, h1.symm, ?_⟩
    exact h2
  · rintro ⟨d, h1, h2⟩
    refine ⟨d, h1.symm, ?_⟩
    exact h2

/-- Merging a state into itself changes nothing. -/
theorem C08_merge_idem_partial {T : Type} [DecidableEq T] (a : ORSet T) (x : T) :
    (a.merge removeWins a).contains x = a.contains x := by
  rw [Bool.eq_iff_iff, ORSet.contains_iff, ORSet.contains_iff]
  simp only [ORSet.dots_merge, ORSet.mem_mergeDots, ORSet.Kept, removeWins]
  constructor
  · rintro ⟨d, h1, _⟩; exact ⟨d, by tauto⟩
  · rintro ⟨d, hd⟩
    have hne : a.dots x ≠ [] := List.ne_nil_of_mem hd
    exact ⟨d, by tauto, by simp [hne]⟩

/-- When one side has removed the element — it holds none of its dots although it has seen one the
other side still holds — the merge drops it, even if the other side added it again concurrently. -/
theorem C08_remove_wins_pairwise {T : Type} [DecidableEq T] (a b : ORSet T) (x : T)
    (hno : a.contains x = false) {d : Dot} (hd : d ∈ b.dots x) (hseen : a.context.hasSeen d = true) :
    (a.merge removeWins b).contains x = false := by
  rw [← Bool.not_eq_true, ORSet.contains_iff]
  have hA : a.dots x = [] := by
    rw [← Bool.not_eq_true, ORSet.contains_iff] at hno
    exact List.eq_nil_iff_forall_not_mem.2 (fun d hd => hno ⟨d, hd⟩)
  rintro ⟨d', hd'⟩
  rw [ORSet.dots_merge, ORSet.mem_mergeDots] at hd'
  have hany : (b.dots x).any (fun d => a.context.hasSeen d) = true :=
    List.any_eq_true.2 ⟨d, hd, hseen⟩
  have := hd'.2
  rw [hany, hA] at this
  simp [removeWins] at this

example : let a := ((ORSet.new 1 : ORSet Nat).merge removeWins ((ORSet.new 2).add 7)).remove 7
    let b := ((ORSet.new 2 : ORSet Nat).add 7).add 7
    a.contains 7 = false ∧ (⟨2, 1⟩ : Dot) ∈ b.dots 7 ∧ a.context.hasSeen ⟨2, 1⟩ = true ∧
    b.contains 7 = true := by decide

/-! ## C09 — OR-Map -/

/-- A key is present when some received `get_or_insert` of it was not seen by a received remove. -/
def KeyMember {K V : Type} (w : World (ORMap K V) (MapOp K V)) (seen : Set Ev) (k : K) : Prop :=
  ∃ e ∈ seen, (∃ i f, w.issue? e = some i ∧ i.op = .update k f) ∧
    ∀ g ∈ seen, ∀ i, w.issue? g = some i → i.op = .remove k → e ∉ i.past

theorem C09_key_iff {K V : Type} [DecidableEq K] {vm : V → V → V} {dv : V}
    {w : World (ORMap K V) (MapOp K V)} (h : Reachable (ORMap.rdt vm dv) w)
    {c : Copy (ORMap K V)} (hc : w.Live c) (k : K) :
    c.state.containsKey k = true ↔ KeyMember w c.seen k := by
  have ka : ∀ o : MapOp K V, o.kind = .add k ↔ ∃ f, o = .update k f := by
    intro o; cases o <;> simp [MapOp.kind]
  have kr : ∀ o : MapOp K V, o.kind = .rem k ↔ o = .remove k := by
    intro o; cases o <;> simp [MapOp.kind]
  have hI := ((dotStore_inv (ormapStore vm dv) h).live c hc).2
  rw [ORMap.containsKey_iff]
  constructor
  · rintro ⟨d, hd⟩
    obtain ⟨e, ⟨h1, ⟨i, h2, h3⟩, h4⟩, _⟩ := (hI.dots k d).1 hd
    obtain ⟨f, hf⟩ := (ka _).1 h3
    exact ⟨e, h1, ⟨i, f, h2, hf⟩, fun f hf i hi hr => h4 f hf i hi ((kr _).2 hr)⟩
  · rintro ⟨e, h1, ⟨i, f, h2, h3⟩, h4⟩
    exact ⟨_, (hI.dots k _).2 ⟨e, ⟨h1, ⟨i, h2, (ka _).2 ⟨f, h3⟩⟩,
      fun f hf i hi hr => h4 f hf i hi ((kr _).1 hr)⟩, rfl⟩⟩

/-- If both sides show a value for a key, the merged map either shows the merge of the two or has
dropped the key; it is dropped only when each side removed what the other holds. -/
theorem C09_merge_value {K V : Type} [DecidableEq K] (vm : V → V → V) (dv : V) (a b : ORMap K V)
    (k : K) {v u : V} (ha : a.get k = some v) (hb : b.get k = some u) :
    (a.merge vm dv b).get k =
      if (a.merge vm dv b).containsKey k then some (vm v u) else none := by
  have hv : a.values.get? k = some v := by
    simp only [ORMap.get] at ha; split at ha
    · exact ha
    · cases ha
  have hu : b.values.get? k = some u := by
    simp only [ORMap.get] at hb; split at hb
    · exact hb
    · cases hb
  simp only [ORMap.get]
  split
  · simp only [ORMap.merge, ORMap.mergeValues_get, hv, hu]
  · rfl

/-- Merging commutes on everything a user can look up, when the values' merge commutes and the default
value is neutral. -/
theorem C09_merge_comm {K V : Type} [DecidableEq K] (vm : V → V → V) (dv : V)
    (comm : ∀ u v, vm u v = vm v u) (neutral : ∀ v, vm dv v = v) (a b : ORMap K V) (k : K) :
    (a.merge vm dv b).get k = (b.merge vm dv a).get k := by
  have hk : (a.merge vm dv b).containsKey k = (b.merge vm dv a).containsKey k := by
    rw [Bool.eq_iff_iff, ORMap.containsKey_iff, ORMap.containsKey_iff]
    simp only [ORMap.dots_merge]
    constructor <;> (rintro ⟨d, hd⟩; exact ⟨d, by tauto⟩)
  have hv : (a.merge vm dv b).values.get? k = (b.merge vm dv a).values.get? k := by
    simp only [ORMap.merge, ORMap.mergeValues_get]
    cases a.values.get? k <;> cases b.values.get? k <;> simp [neutral, comm]
  simp only [ORMap.get, hk, hv]

theorem C09_merge_idem {K V : Type} [DecidableEq K] (vm : V → V → V) (dv : V)
    (idem : ∀ v, vm v v = v) (a : ORMap K V) (k : K) : (a.merge vm dv a).get k = a.get k := by
  have hk : (a.merge vm dv a).containsKey k = a.containsKey k := by
    rw [Bool.eq_iff_iff, ORMap.containsKey_iff, ORMap.containsKey_iff]
    simp only [ORMap.dots_merge]
    constructor <;> (rintro ⟨d, hd⟩; exact ⟨d, by tauto⟩)
  have hv : (a.merge vm dv a).values.get? k = a.values.get? k := by
    simp only [ORMap.merge, ORMap.mergeValues_get]
    cases a.values.get? k <;> simp [idem]
  simp only [ORMap.get, hk, hv]

/-- Copies that have received the same operations show the same map, for values that form a join
semilattice with the default at the bottom and are only ever moved up — which is what every counter and
set nested in the map provides. -/
theorem C09_convergence {K V : Type} [DecidableEq K] [SemilatticeSup V] [OrderBot V]
    {w : World (ORMap K V) (MapOp K V)} (h : Reachable (ORMap.rdt (· ⊔ ·) ⊥) w)
    {c d : Copy (ORMap K V)} (hc : w.Live c) (hd : w.Live d) (same : c.seen = d.seen)
    (up : ∀ e ∈ c.seen, ∀ i, w.issue? e = some i → ORMap.Inflationary i.op) (k : K) :
    c.state.get k = d.state.get k := by
  have hk : c.state.containsKey k = d.state.containsKey k := by
    rw [Bool.eq_iff_iff, C09_key_iff h hc, C09_key_iff h hd, same]
  simp only [ORMap.get, hk]
  split
  · next hp =>
    have hp' := hp
    rw [← hk] at hp'
    have h1 := ((ORMap.values_inv h).live c hc).2 k ((ORMap.containsKey_iff _ _).1 hp')
    have h2 := ((ORMap.values_inv h).live d hd).2 k ((ORMap.containsKey_iff _ _).1 hp)
    have l1 := ((ORMap.val_inv h).live c hc).2 up k
    have l2 := ((ORMap.val_inv h).live d hd).2 (by rw [← same]; exact up) k
    rw [same] at l1
    have := l1.unique l2
    simp only [ORMap.val, HMap.getD] at this
    cases e1 : c.state.values.get? k with
    | none => simp [e1] at h1
    | some v =>
      cases e2 : d.state.values.get? k with
      | none => simp [e2] at h2
      | some u => simp only [e1, e2, Option.getD_some] at this; rw [this]
  · rfl

/-- two replicas count at the same key (largest wins), one removes it concurrently -/
example : ∃ w : World (ORMap Nat Nat) (MapOp Nat Nat), Reachable (ORMap.rdt (· ⊔ ·) ⊥) w ∧
    (w.node 1).seen = {⟨1, 0⟩, ⟨2, 0⟩, ⟨2, 1⟩} ∧ (w.node 1).state.get 7 = some 9 ∧
    (w.node 2).state.get 7 = none := by
  have s0 := Reachable.start (T := ORMap.rdt (K := Nat) (V := Nat) (· ⊔ ·) ⊥)
  have s1 := s0.step (Step.op _ 1 (.update 7 (· + 5)))
  have s2 := s1.step (Step.op _ 2 (.update 7 (· + 9)))
  have s3 := s2.step (Step.op _ 2 (.remove 7))
  have s4 := s3.step (Step.send _ 2)
  have s5 := s4.step (Step.recv _ 1 _ (Set.mem_insert _ _))
  refine ⟨_, s5, ?_, ?_, ?_⟩
  · ext x
    simp [World.start, upd]; tauto
  · decide
  · decide

/-- Worth knowing: removing a key hides its value but does not forget it; inserting the key again shows
the old value, not the default. -/
theorem C09_reinsert_shows_old_value :
    let m := ((ORMap.new 1 : ORMap Nat Nat).update 0 7 (· + 5)).remove 7
    m.get 7 = none ∧ (m.update 0 7 id).get 7 = some 5 := by decide

/-! ## C67 — exchanging deltas instead of states -/

/-- Fails for OR-Sets: a removal never travels in a delta. Replica 1 removes an element replica 2 knows:
there is "nothing to send", although a full merge would remove it. -/
theorem C67_orset_delta_loses_removal :
    let a0 := (ORSet.new 1 : ORSet Nat).add 7
    let b := (ORSet.new 2 : ORSet Nat).merge addWins a0
    let a := a0.remove 7
    (a.deltaSince b.context.clock = none) ∧ b.contains 7 = true ∧
    (b.merge addWins a).contains 7 = false := by
  refine ⟨?_, ?_, ?_⟩
  · simp only [ORSet.deltaSince]; rw [if_pos (by decide)]
  · decide
  · decide

/-- Even when there is something to send, the removal is not part of it. -/
theorem C67_orset_delta_not_merge :
    let a0 := (ORSet.new 1 : ORSet Nat).add 7
    let b := (ORSet.new 2 : ORSet Nat).merge addWins a0
    let a := (a0.remove 7).add 8
    (a.deltaSince b.context.clock).map (fun d => ((b.applyDelta addWins d).contains 8, (b.applyDelta addWins d).contains 7))
      = some (true, true) ∧
      (b.merge addWins a).contains 7 = false := by
  refine ⟨?_, ?_⟩ <;> decide

/-- Fails for OR-Maps too: the delta is the whole state, but applying it skips removals. -/
theorem C67_ormap_delta_not_merge :
    let a0 := (ORMap.new 1 : ORMap Nat Nat).update 0 7 (· + 1)
    let b := (ORMap.new 2 : ORMap Nat Nat).merge max 0 a0
    let a := (a0.remove 7).update 0 8 id
    (a.deltaSince b.context.clock).map (fun d => ((b.applyDelta max 0 d).containsKey 8, (b.applyDelta max 0 d).containsKey 7))
      = some (true, true) ∧
      (b.merge max 0 a).containsKey 7 = false := by
  refine ⟨?_, ?_⟩ <;> decide

end Verif.Props
