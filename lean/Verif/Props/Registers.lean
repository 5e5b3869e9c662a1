import Verif.Crdt.RegisterLemmas
import Verif.Crdt.Context
/-!
# C04, C05, C06, C10: causal contexts, registers and the delta buffer
-/
namespace Verif.Props
open Verif.Crdt

/-! ## C04 — causal contexts -/

/-- A context together with the set of dots it was given, through any history of operations. -/
inductive ContextHistory : DotContext → Set Dot → Prop
  | new : ContextHistory .new ∅
  | next {c s} (r : Rid) : ContextHistory c s → ContextHistory (c.next r).1 (insert (c.next r).2 s)
  | add {c s} (d : Dot) : ContextHistory c s → ContextHistory (c.add d) (insert d s)
  | compact {c s} : ContextHistory c s → ContextHistory c.compact s
  | merge {c s c' s'} : ContextHistory c s → ContextHistory c' s' → ContextHistory (c.merge c') (s ∪ s')

/-- A context remembers exactly the dots it was given (dot counters start at 1; counter 0 is the
"nothing yet" of every replica and counts as seen). -/
theorem C04_has_seen_iff_given {c : DotContext} {s : Set Dot} (h : ContextHistory c s) (d : Dot) :
    c.hasSeen d = true ↔ d ∈ s ∨ d.counter = 0 := by
  induction h with
  | new => simp [DotContext.hasSeen, DotContext.new]
  | next r _ ih => rw [DotContext.next_seen, ih, Set.mem_insert_iff]; tauto
  | add d' _ ih => rw [DotContext.add_seen, ih, Set.mem_insert_iff]; tauto
  | compact _ ih => rw [DotContext.compact_seen, ih]
  | merge _ _ ih1 ih2 => rw [DotContext.merge_seen, ih1, ih2, Set.mem_union]; tauto

example : ContextHistory ((DotContext.new.add ⟨7, 2⟩).add ⟨7, 1⟩)
    (insert ⟨7, 1⟩ (insert ⟨7, 2⟩ ∅)) := .add _ (.add _ .new)
/-- the out-of-order dots above end up in the clock, the cloud is empty -/
example : ((DotContext.new.add ⟨7, 2⟩).add ⟨7, 1⟩).cloud = [] ∧
    ((DotContext.new.add ⟨7, 2⟩).add ⟨7, 1⟩).clock.get 7 = 2 := by decide

/-- A system of contexts: replicas draw dots, receive single dots that were drawn somewhere, in any
order, and merge contexts sent by others at any earlier time. -/
structure ContextSystem where
  ctx : Rid → DotContext
  sent : Set DotContext
  drawn : Set Dot

inductive ContextSystem.Reach : ContextSystem → Prop
  | start : Reach ⟨fun _ => .new, ∅, ∅⟩
  | next {S} (r : Rid) : Reach S → Reach ⟨upd S.ctx r ((S.ctx r).next r).1, S.sent,
      insert ((S.ctx r).next r).2 S.drawn⟩
  | add {S} (r : Rid) (d : Dot) : Reach S → d ∈ S.drawn →
      Reach ⟨upd S.ctx r ((S.ctx r).add d), S.sent, S.drawn⟩
  | send {S} (r : Rid) : Reach S → Reach ⟨S.ctx, insert (S.ctx r) S.sent, S.drawn⟩
  | merge {S} (r : Rid) (c : DotContext) : Reach S → c ∈ S.sent →
      Reach ⟨upd S.ctx r ((S.ctx r).merge c), S.sent, S.drawn⟩

theorem contextSystem_inv {S : ContextSystem} (h : S.Reach) :
    (∀ r d, (S.ctx r).hasSeen d = true → d ∈ S.drawn ∨ d.counter = 0) ∧
    (∀ c ∈ S.sent, ∀ d, c.hasSeen d = true → d ∈ S.drawn ∨ d.counter = 0) ∧
    (∀ d ∈ S.drawn, d.counter ≤ (S.ctx d.replica).clock.get d.replica) := by
  have mono_loop : ∀ (r' r : Rid) (fuel : Nat) (c : DotContext),
      c.clock.get r' ≤ (DotContext.compactLoop r fuel c).clock.get r' := by
    intro r' r fuel
    induction fuel with
    | zero => intro c; exact Nat.le_refl _
    | succ n ih =>
      intro c
      simp only [DotContext.compactLoop]
      split
      · refine Nat.le_trans ?_ (ih _)
        simp only [VClock.get_increment]; split <;> omega
      · exact Nat.le_refl _
  have mono_compact : ∀ (r' : Rid) (c : DotContext), c.clock.get r' ≤ c.compact.clock.get r' := by
    intro r' c
    rw [DotContext.compact]
    generalize c.cloud.map Dot.replica = l
    induction l generalizing c with
    | nil => exact Nat.le_refl _
    | cons x t ih => rw [List.foldl_cons]; exact Nat.le_trans (mono_loop _ _ _ _) (ih _)
  have fold_clock : ∀ (l : List Dot) (c : DotContext),
      (l.foldl (fun (c : DotContext) d => if c.hasSeen d then c
        else { c with cloud := c.cloud.insert d }) c).clock = c.clock := by
    intro l
    induction l with
    | nil => intro c; rfl
    | cons d t ih => intro c; rw [List.foldl_cons, ih]; split <;> rfl
  induction h with
  | start =>
    refine ⟨?_, ?_, ?_⟩
    · intro r d h; right; simpa [DotContext.hasSeen, DotContext.new] using h
    · intro c hc; exact absurd hc (Set.notMem_empty _)
    · intro d hd; exact absurd hd (Set.notMem_empty _)
  | @next S r _ ih =>
    obtain ⟨i1, i2, i3⟩ := ih
    refine ⟨?_, ?_, ?_⟩
    · intro r' d h
      by_cases e : r' = r
      · subst e
        simp only [upd_same] at h
        rcases (DotContext.next_seen _ _ _).1 h with h | h
        · rcases i1 _ _ h with h | h
          · exact Or.inl (Set.mem_insert_of_mem _ h)
          · exact Or.inr h
        · left; rw [h]; exact Set.mem_insert _ _
      · simp only [upd_ne _ _ e] at h
        rcases i1 _ _ h with h | h
        · exact Or.inl (Set.mem_insert_of_mem _ h)
        · exact Or.inr h
    · intro c hc d h
      rcases i2 c hc d h with h | h
      · exact Or.inl (Set.mem_insert_of_mem _ h)
      · exact Or.inr h
    · intro d hd
      rcases Set.mem_insert_iff.1 hd with rfl | hd
      · simp only [DotContext.next, upd_same, VClock.get_increment, if_true]; exact Nat.le_refl _
      · have := i3 d hd
        by_cases e : d.replica = r
        · rw [e] at this ⊢; simp only [upd_same, DotContext.next, VClock.get_increment, if_true]; omega
        · simp only [upd_ne _ _ e]; exact this
  | @add S r d' _ hd' ih =>
    obtain ⟨i1, i2, i3⟩ := ih
    refine ⟨?_, i2, ?_⟩
    · intro r' d h
      by_cases e : r' = r
      · subst e
        simp only [upd_same] at h
        rcases (DotContext.add_seen _ _ _).1 h with h | h
        · exact i1 _ _ h
        · left; rw [h]; exact hd'
      · simp only [upd_ne _ _ e] at h; exact i1 _ _ h
    · intro d hd
      have := i3 d hd
      by_cases e : d.replica = r
      · rw [e] at this ⊢
        simp only [upd_same]
        refine Nat.le_trans this ?_
        rw [DotContext.add]
        split
        · refine Nat.le_trans ?_ (mono_loop _ _ _ _)
          simp only [VClock.get_increment]; split <;> omega
        · split <;> exact Nat.le_refl _
      · simp only [upd_ne _ _ e]; exact this
  | @send S r _ ih =>
    obtain ⟨i1, i2, i3⟩ := ih
    refine ⟨i1, ?_, i3⟩
    intro c hc d h
    rcases Set.mem_insert_iff.1 hc with rfl | hc
    · exact i1 _ _ h
    · exact i2 c hc d h
  | @merge S r c' _ hc' ih =>
    obtain ⟨i1, i2, i3⟩ := ih
    refine ⟨?_, i2, ?_⟩
    · intro r' d h
      by_cases e : r' = r
      · subst e
        simp only [upd_same] at h
        rcases (DotContext.merge_seen _ _ _).1 h with h | h
        · exact i1 _ _ h
        · exact i2 _ hc' _ h
      · simp only [upd_ne _ _ e] at h; exact i1 _ _ h
    · intro d hd
      have := i3 d hd
      by_cases e : d.replica = r
      · rw [e] at this ⊢
        simp only [upd_same]
        refine Nat.le_trans this ?_
        rw [DotContext.merge]
        refine Nat.le_trans ?_ (mono_compact _ _)
        rw [fold_clock]
        simp only [VClock.get_merge]; omega
      · simp only [upd_ne _ _ e]; exact this

/-- In such a system every dot drawn is new to the whole system, not only to the drawing replica. -/
theorem C04_next_fresh {S : ContextSystem} (h : S.Reach) (r : Rid) :
    ((S.ctx r).next r).2 ∉ S.drawn ∧ (S.ctx r).hasSeen ((S.ctx r).next r).2 = false ∧
    ∀ r', (S.ctx r').hasSeen ((S.ctx r).next r).2 = false := by
  obtain ⟨i1, _, i3⟩ := contextSystem_inv h
  have h1 : ((S.ctx r).next r).2 ∉ S.drawn := by
    intro hd
    have := i3 _ hd
    simp only [DotContext.next, VClock.incrementVal, VClock.get] at this
    omega
  have h2 : ∀ r', (S.ctx r').hasSeen ((S.ctx r).next r).2 = false := by
    intro r'
    rw [← Bool.not_eq_true]
    intro hs
    rcases i1 _ _ hs with h | h
    · exact h1 h
    · simp [DotContext.next, VClock.incrementVal] at h
  exact ⟨h1, h2 r, h2⟩

example : ∃ S : ContextSystem, S.Reach ∧ (⟨1, 1⟩ : Dot) ∈ S.drawn ∧ (⟨2, 1⟩ : Dot) ∈ S.drawn :=
  ⟨_, .next 2 (.next 1 .start), by simp [DotContext.next, VClock.incrementVal, DotContext.new, upd,
    VClock.new, HMap.getD]⟩

/-- The provenance condition is needed: a context that received a later dot of its own replica from
elsewhere (a replica restored from an old backup) hands that dot out a second time. -/
theorem C04_next_repeats_foreign_own_dot :
    let c := (DotContext.new.add ⟨1, 2⟩)
    let c1 := (c.next 1).1
    c1.hasSeen (c1.next 1).2 = true := by decide

/-! ## C05 — last-writer-wins register -/

/-- Full statement of commutativity fails: two writes with the same timestamp. -/
theorem C05_merge_comm_fails :
    ¬ ∀ a b : LWW Nat, (a.merge b).value = (b.merge a).value :=
  fun h => absurd (h ⟨1, 5⟩ ⟨2, 5⟩) (by decide)

/-- Two replicas that exchange states end up apart after a tie: this is a reachable divergence, both
have received both writes. -/
theorem C05_diverges_on_tie : ∃ w : World (LWW Nat) (Nat × Nat), Reachable (LWW.rdt 0) w ∧
    (w.node 1).seen = (w.node 2).seen ∧ (w.node 1).state.value ≠ (w.node 2).state.value := by
  have s0 := Reachable.start (T := LWW.rdt 0)
  have s1 := s0.step (Step.op _ 1 (10, 5))
  have s2 := s1.step (Step.op _ 2 (20, 5))
  have s3 := s2.step (Step.send _ 1)
  have s4 := s3.step (Step.send _ 2)
  have s5 := s4.step (Step.recv _ 1 ⟨⟨20, 5⟩, {⟨2, 0⟩}⟩ (by simp [World.start, upd, LWW.rdt, LWW.set]))
  have s6 := s5.step (Step.recv _ 2 ⟨⟨10, 5⟩, {⟨1, 0⟩}⟩ (by simp [World.start, upd, LWW.rdt, LWW.set]))
  refine ⟨_, s6, ?_, ?_⟩
  · simp [World.start, upd, Set.pair_comm]
  · simp [World.start, upd, LWW.rdt, LWW.set, LWW.merge]

/-- With distinct timestamps merging commutes. Missing for the full statement: ties. -/
theorem C05_merge_comm_partial {T : Type} (a b : LWW T) (h : a.timestamp ≠ b.timestamp) :
    a.merge b = b.merge a := by
  simp only [LWW.merge]; split <;> split <;> first | omega | rfl

theorem C05_merge_assoc {T : Type} (a b c : LWW T) : (a.merge b).merge c = a.merge (b.merge c) := by
  simp only [LWW.merge]
  by_cases h1 : b.timestamp ≥ a.timestamp <;> by_cases h2 : c.timestamp ≥ b.timestamp <;>
    by_cases h3 : c.timestamp ≥ a.timestamp <;> simp [h1, h2, h3] <;> omega

theorem C05_merge_idem {T : Type} (a : LWW T) : a.merge a = a := by simp [LWW.merge]

/-- The surviving timestamp is the greater one and its value goes with it. -/
theorem C05_merge_greatest {T : Type} (a b : LWW T) :
    (a.merge b).timestamp = max a.timestamp b.timestamp ∧ (a.merge b = a ∨ a.merge b = b) := by
  simp only [LWW.merge]
  split
  · exact ⟨by simp only; omega, Or.inr rfl⟩
  · exact ⟨by omega, Or.inl rfl⟩

/-- If callers follow the documented discipline (each write carries a timestamp above the register's
current one) and no two writes share a timestamp, every copy shows the received write with the
greatest timestamp, so copies that received the same writes agree. Missing: ties. -/
theorem C05_value_is_latest_partial {T : Type} {v0 : T} {w : World (LWW T) (T × Nat)}
    (h : Reachable (LWW.rdt v0) w) {c : Copy (LWW T)} (hc : w.Live c)
    (hmon : ∀ e ∈ c.seen, ∀ i, w.issue? e = some i → i.op.2 > i.pre.timestamp)
    {e : Ev} (he : e ∈ c.seen) {i} (hi : w.issue? e = some i)
    (hmax : ∀ f ∈ c.seen, ∀ k, w.issue? f = some k → f ≠ e → k.op.2 < i.op.2) :
    c.state.value = i.op.1 ∧ c.state.timestamp = i.op.2 := by
  obtain ⟨h1, h2⟩ := ((lww_inv h).live c hc).2 hmon
  rcases h1 with ⟨_, hs⟩ | ⟨x, hx, k, hk, hs⟩
  · rw [hs] at he; exact absurd he (Set.notMem_empty _)
  · by_cases hxe : x = e
    · subst hxe; rw [hi] at hk; injection hk with hk; subst hk; rw [hs]; exact ⟨rfl, rfl⟩
    · have a1 := hmax x hx k hk hxe
      have a2 := h2 e he i hi
      rw [hs] at a2; simp only at a2; omega

example : ∃ w : World (LWW Nat) (Nat × Nat), Reachable (LWW.rdt 0) w ∧
    (w.node 1).seen = {⟨2, 0⟩, ⟨1, 0⟩} ∧ (w.node 1).state.value = 20 := by
  have s0 := Reachable.start (T := LWW.rdt 0)
  have s1 := s0.step (Step.op _ 1 (10, 5))
  have s2 := s1.step (Step.op _ 2 (20, 6))
  have s4 := s2.step (Step.send _ 2)
  have s5 := s4.step (Step.recv _ 1 ⟨⟨20, 6⟩, {⟨2, 0⟩}⟩ (by simp [World.start, upd, LWW.rdt, LWW.set]))
  refine ⟨_, s5, ?_, ?_⟩
  · simp [World.start, upd, Set.pair_comm]
  · simp [World.start, upd, LWW.rdt, LWW.set, LWW.merge]

/-! ## C06 — multi-value register -/

/-- A received write is current when no received write was made by someone who had seen it. -/
def CurrentWrite {T : Type} (w : World (MVReg T) T) (seen : Set Ev) (e : Ev) : Prop :=
  e ∈ seen ∧ ∀ f ∈ seen, ∀ i, w.issue? f = some i → e ∉ i.past

/-- The register shows exactly one value per current write, and nothing else. -/
theorem C06_values_are_current_writes {T : Type} [DecidableEq T] {w : World (MVReg T) T}
    (h : Reachable MVReg.rdt w) {c : Copy (MVReg T)} (hc : w.Live c) :
    ∃ L : List Ev, L.Nodup ∧ (∀ e, e ∈ L ↔ CurrentWrite w c.seen e) ∧
      c.state.vals.map some = L.map (fun e => (w.issue? e).map Issue.op) := by
  obtain ⟨TL, hTL⟩ := ((mvreg_inv h).live c hc).2
  refine ⟨TL.map Prod.fst, hTL.nodup, ?_, ?_⟩
  · intro e
    constructor
    · intro he
      obtain ⟨t, ht, rfl⟩ := List.mem_map.1 he
      exact ⟨(hTL.tag t ht).2, fun f hf i hi => hTL.maxl t ht f hf i hi⟩
    · rintro ⟨he, hm⟩
      obtain ⟨t, ht, h⟩ := hTL.cover e he
      rcases h with rfl | ⟨i, hi, hmem⟩
      · exact List.mem_map.2 ⟨t, ht, rfl⟩
      · exact absurd hmem (hm t.1 (hTL.tag t ht).2 i hi)
  · rw [MVReg.vals, hTL.vals, List.map_map, List.map_map, List.map_map]
    apply List.map_congr_left
    intro t ht
    obtain ⟨⟨⟨i, hi, ho, _⟩, _⟩, _⟩ := hTL.tag t ht
    simp [hi, ho]

/-- Copies that have received the same writes show the same values (as multisets). -/
theorem C06_convergence {T : Type} [DecidableEq T] {w : World (MVReg T) T}
    (h : Reachable MVReg.rdt w) {c d : Copy (MVReg T)} (hc : w.Live c) (hd : w.Live d)
    (same : c.seen = d.seen) : c.state.vals.Perm d.state.vals := by
  obtain ⟨L, n1, m1, e1⟩ := C06_values_are_current_writes h hc
  obtain ⟨M, n2, m2, e2⟩ := C06_values_are_current_writes h hd
  have hp : L.Perm M := by
    rw [List.perm_ext_iff_of_nodup n1 n2]
    intro e; rw [m1, m2, same]
  have := hp.map (fun e => (w.issue? e).map Issue.op)
  rw [← e1, ← e2] at this
  have h3 := this.filterMap id
  simpa [List.filterMap_map] using h3

/-- A local write supersedes everything the replica had: it is the only value left. -/
theorem C06_set_supersedes {T : Type} [DecidableEq T] (s : MVReg T) (v : T) : (s.set v).vals = [v] := rfl

/-- A refused delta means the peer already has everything. -/
theorem C06_delta_none_covered {T : Type} [DecidableEq T] {w : World (MVReg T) T}
    (h : Reachable MVReg.rdt w) {c d : Copy (MVReg T)} (hc : w.Live c) (hd : w.Live d)
    (hn : c.state.deltaSince d.state.version = none) : c.seen ⊆ d.seen := by
  have key : ∀ c, w.Live c → ∀ r j, j < c.state.version.get r ↔ (⟨r, j⟩ : Ev) ∈ c.seen := by
    intro c hc r j
    obtain ⟨g, TL, hTL⟩ := (mvreg_inv h).live c hc
    rw [MVReg.version, joinClocks_get]
    constructor
    · rintro ⟨p, hp, hj⟩
      rw [hTL.vals] at hp
      obtain ⟨t, ht, rfl⟩ := List.mem_map.1 hp
      obtain ⟨⟨⟨i, hi, _, h2⟩, _⟩, hs⟩ := hTL.tag t ht
      rcases (h2 r j).1 hj with h3 | h3
      · obtain ⟨i', hi', hsub⟩ := g.issued _ hs
        rw [hi] at hi'; injection hi' with hi'; subst hi'
        exact hsub h3
      · rw [h3]; exact hs
    · intro hs
      obtain ⟨t, ht, h⟩ := hTL.cover _ hs
      refine ⟨t.2, by rw [hTL.vals]; exact List.mem_map.2 ⟨t, ht, rfl⟩, ?_⟩
      obtain ⟨⟨⟨i, hi, _, h2⟩, _⟩, _⟩ := hTL.tag t ht
      rw [h2]
      rcases h with h | ⟨i', hi', hm⟩
      · exact Or.inr h
      · rw [hi] at hi'; injection hi' with hi'; subst hi'
        exact Or.inl hm
  simp only [MVReg.deltaSince] at hn
  split at hn
  · next hdom =>
    rw [VClock.dominates_iff] at hdom
    rintro ⟨r, j⟩ he
    rw [← key d hd]
    exact Nat.lt_of_lt_of_le ((key c hc r j).2 he) (hdom r)
  · cases hn

/-- …and a delta that is handed out acts as a full merge. -/
theorem C06_delta_is_merge {T : Type} [DecidableEq T] (a b : MVReg T) (v : VClock) (d)
    (h : a.deltaSince v = some d) : b.applyDelta d = b.merge a := by
  simp only [MVReg.deltaSince] at h
  split at h
  · cases h
  · injection h with h; subst h; rfl

/-- two concurrent writes are both kept; a third write over the merged register leaves one -/
example : let a := (MVReg.new 1).set 10; let b := (MVReg.new 2).set 20
    (a.merge b).vals = [10, 20] ∧ (((a.merge b).set 30).merge b).vals = [30] := by decide

/-! ## C10 — delta buffer -/

/-- The full statement fails: the peer knows an unrelated event, the evicted delta is not sent and no
full sync is asked for. -/
theorem C10_incomplete_fails : ¬ ∀ (n : Nat) (pushed : List (VClock × Nat)) (v : VClock) (ds : List Nat),
    (DeltaBuffer.pushAll n pushed).deltasSince v = some ds →
    ∀ p ∈ pushed, v.dominates p.1 = false → p.2 ∈ ds := by
  intro h
  have := h 1 [(VClock.new.increment 1, 100), ((VClock.new.increment 1).increment 1, 200)]
    (VClock.new.increment 2) [200] (by decide) (VClock.new.increment 1, 100) (by simp) (by decide)
  simp at this

/-- A buffer of size zero still holds one delta. -/
theorem C10_size_zero_holds_one :
    ((DeltaBuffer.pushAll 0 [(VClock.new.increment 1, 7)]).deltas.length) = 1 := by decide

/-- Otherwise the configured size is respected. -/
theorem C10_size_bound {D : Type} (n : Nat) (hn : 0 < n) (pushed : List (VClock × D)) :
    (DeltaBuffer.pushAll n pushed).deltas.length ≤ n := by
  have : ∀ (l : List (VClock × D)) (b : DeltaBuffer D), b.maxSize = n → b.deltas.length ≤ n →
      (l.foldl (fun b p => b.push p.1 p.2) b).deltas.length ≤ n := by
    intro l
    induction l with
    | nil => intro b _ h; exact h
    | cons p t ih =>
      intro b hb h
      rw [List.foldl_cons]
      apply ih
      · rw [DeltaBuffer.push]; split
        · split <;> exact hb
        · exact hb
      · rw [DeltaBuffer.push]
        split
        · split
          · next h2 => rw [h2] at h; simp at h ⊢; omega
          · simp; omega
        · simp; omega
  exact this pushed _ rfl (by simp [DeltaBuffer.new])

/-- When the pushed versions grow (each dominates all earlier ones) and the peer's version is
comparable with each of them — the single-writer case — an answer is complete: it contains every
pushed delta the peer lacks, and only those. Missing for the full statement: peers that know events
unrelated to the evicted versions (`C10_incomplete_fails`). -/
theorem C10_complete_partial {D : Type} (n : Nat) (pushed : List (VClock × D)) (v : VClock)
    (grow : pushed.Pairwise (fun p q => q.1.dominates p.1 = true))
    (comp : ∀ p ∈ pushed, v.dominates p.1 = true ∨ p.1.dominates v = true)
    (ds : List D) (h : (DeltaBuffer.pushAll n pushed).deltasSince v = some ds) :
    ds = (pushed.filter (fun p => !v.dominates p.1)).map Prod.snd := by
  -- the buffer is a suffix of what was pushed, `oldest` the last evicted version
  have inv : ∀ (l : List (VClock × D)) (b : DeltaBuffer D) (ev : List (VClock × D)),
      (ev = [] ∧ b.oldest = .new ∨ ∃ d, ev.getLast? = some (b.oldest, d)) →
      ∃ ev' : List (VClock × D), ev ++ b.deltas ++ l = ev' ++ (l.foldl (fun b p => b.push p.1 p.2) b).deltas ∧
        (ev' = [] ∧ (l.foldl (fun b p => b.push p.1 p.2) b).oldest = .new ∨
          ∃ d, ev'.getLast? = some ((l.foldl (fun b p => b.push p.1 p.2) b).oldest, d)) := by
    intro l
    induction l with
    | nil => intro b ev h; exact ⟨ev, by simp, h⟩
    | cons p t ih =>
      intro b ev hev
      rw [List.foldl_cons]
      by_cases hfull : b.deltas.length ≥ b.maxSize
      · cases hd : b.deltas with
        | nil =>
          have e1 : b.push p.1 p.2 = { b with deltas := [(p.1, p.2)] } := by
            rw [DeltaBuffer.push, if_pos hfull, hd]
          rw [e1]
          obtain ⟨ev', h1, h2⟩ := ih { b with deltas := [(p.1, p.2)] } ev hev
          exact ⟨ev', by rw [← h1]; simp, h2⟩
        | cons q rest =>
          have e1 : b.push p.1 p.2 = { b with deltas := rest ++ [(p.1, p.2)], oldest := q.1 } := by
            rw [DeltaBuffer.push, if_pos hfull, hd]
          rw [e1]
          obtain ⟨ev', h1, h2⟩ := ih { b with deltas := rest ++ [(p.1, p.2)], oldest := q.1 }
            (ev ++ [q]) (Or.inr ⟨q.2, by simp⟩)
          exact ⟨ev', by rw [← h1]; simp, h2⟩
      · have e1 : b.push p.1 p.2 = { b with deltas := b.deltas ++ [(p.1, p.2)] } := by
          rw [DeltaBuffer.push, if_neg hfull]
        rw [e1]
        obtain ⟨ev', h1, h2⟩ := ih { b with deltas := b.deltas ++ [(p.1, p.2)] } ev hev
        exact ⟨ev', by rw [← h1]; simp, h2⟩
  obtain ⟨ev, h1, h2⟩ := inv pushed (DeltaBuffer.new n) [] (Or.inl ⟨rfl, rfl⟩)
  have h1' : pushed = ev ++ (DeltaBuffer.pushAll n pushed).deltas := by
    simpa [DeltaBuffer.pushAll, DeltaBuffer.new] using h1
  change (ev = [] ∧ (DeltaBuffer.pushAll n pushed).oldest = .new ∨
    ∃ d, ev.getLast? = some ((DeltaBuffer.pushAll n pushed).oldest, d)) at h2
  generalize DeltaBuffer.pushAll n pushed = b at h h1' h2
  -- every evicted version is covered by the peer
  have hcov : ∀ p ∈ ev, v.dominates p.1 = true := by
    rcases h2 with ⟨rfl, _⟩ | ⟨d, hl⟩
    · simp
    · intro p hp
      have hne : ev ≠ [] := List.ne_nil_of_mem hp
      obtain ⟨pre, last, hpl⟩ : ∃ pre last, ev = pre ++ [last] :=
        ⟨ev.dropLast, ev.getLast hne, (List.dropLast_append_getLast hne).symm⟩
      subst hpl
      have hl' : last = (b.oldest, d) := by simpa using hl
      have hold : v.dominates b.oldest = true := by
        have hc := comp last (by rw [h1']; simp)
        rw [hl'] at hc
        rcases hc with hc | hc
        · exact hc
        · simp only at hc
          simp only [DeltaBuffer.deltasSince] at h
          by_cases hz : b.oldest.beq .new = true
          · rw [VClock.beq_iff] at hz
            rw [VClock.dominates_iff]
            intro r
            have := hz r
            simp only [VClock.get, HMap.getD, this]; simp [VClock.new]
          · rw [if_pos (by simp [hz, hc])] at h; cases h
      rcases List.mem_append.1 hp with hp | hp
      · have hpw : pre.Pairwise _ ∧ _ := List.pairwise_append.1 (List.pairwise_append.1 (h1' ▸ grow)).1
        have := (List.pairwise_append.1 (List.pairwise_append.1 (h1' ▸ grow)).1).2.2 p hp last (by simp)
        rw [hl'] at this
        rw [VClock.dominates_iff] at *
        exact fun r => Nat.le_trans (this r) (hold r)
      · rw [List.mem_singleton.1 hp, hl']; exact hold
  have hds : ds = (b.deltas.filter (fun p => !v.dominates p.1)).map Prod.snd := by
    simp only [DeltaBuffer.deltasSince] at h
    split at h
    · cases h
    · injection h with h; exact h.symm
  rw [hds, h1', List.filter_append, List.map_append]
  have : ev.filter (fun p => !v.dominates p.1) = [] := by
    rw [List.filter_eq_nil_iff]; intro p hp; simp [hcov p hp]
  rw [this]; rfl

example : (DeltaBuffer.pushAll 2 [(VClock.new.increment 1, 100),
    ((VClock.new.increment 1).increment 1, 200),
    (((VClock.new.increment 1).increment 1).increment 1, 300)]).deltasSince
      ((VClock.new.increment 1).increment 1) = some [300] := by decide

end Verif.Props
