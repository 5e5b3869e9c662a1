import Verif.Time.Clock
import Mathlib.Logic.Relation
/-! # C64, C65: hybrid logical clocks and the synchronisation clock -/
namespace Verif.Props
open Verif.Time

/-! ## C64: hybrid logical clocks

A history is the list of all stamped events of all nodes, in the order in which they happened.  An event is local
(or a send), or the receipt of a message carrying the timestamp of an earlier event; wall clocks are arbitrary,
messages may be lost, repeated and reordered. -/

/-- A stamped event: its node, its wall clock, the event whose timestamp it received (if any), its timestamp. -/
structure Stamped where
  node : Nat
  now : Int
  source : Option Nat
  stamp : Hlc

/-- The current timestamp of a node: that of its last event, or zero. -/
def current (log : List Stamped) (n : Nat) : Hlc := log.foldl (fun h e => if e.node = n then e.stamp else h) Hlc.zero

/-- The histories. -/
inductive History : List Stamped → Prop
  | nil : History []
  | tick {log n now} : History log → History (log ++ [⟨n, now, none, (current log n).tick now⟩])
  | recv {log n now i e} : History log → log[i]? = some e →
      History (log ++ [⟨n, now, some i, (current log n).recv e.stamp now⟩])

/-- Event `i` happened before event `j`: earlier on the same node, received there, or by a chain of these. -/
def HappensBefore (log : List Stamped) : Nat → Nat → Prop :=
  Relation.TransGen (fun i j => ∃ a b, log[i]? = some a ∧ log[j]? = some b ∧
    ((i < j ∧ a.node = b.node) ∨ b.source = some i))

/-- `tick` and `recv` return a timestamp greater than all inputs and not behind the wall clock (as long as the
32-bit counter does not overflow). -/
theorem C64_greater (h r : Hlc) (now : Int) (hl : h.logical < 4294967295) (hr : r.logical < 4294967295) :
    (h.lt (h.tick now) ∧ now ≤ (h.tick now).physical) ∧
      h.lt (h.recv r now) ∧ r.lt (h.recv r now) ∧ now ≤ (h.recv r now).physical := by
  have h1 := tick_gt h now hl
  have h2 := recv_gt h r now hl hr
  exact ⟨⟨h1.1, h1.2.1⟩, h2.1, h2.2.1, h2.2.2.1⟩

theorem current_snoc (log : List Stamped) (e : Stamped) (n : Nat) :
    current (log ++ [e]) n = if e.node = n then e.stamp else current log n := by
  simp [current, List.foldl_append]

/-- Everything needed about a history. -/
structure HistInv (log : List Stamped) : Prop where
  small : ∀ e ∈ log, e.stamp.logical ≤ log.length
  curSmall : ∀ n, (current log n).logical ≤ log.length
  cur : ∀ e ∈ log, ¬ (current log e.node).lt e.stamp
  edge : ∀ (i j : Nat) (a b : Stamped), log[i]? = some a → log[j]? = some b → (i < j ∧ a.node = b.node) ∨ b.source = some i → a.stamp.lt b.stamp
  wall : ∀ e ∈ log, e.now ≤ e.stamp.physical
  src : ∀ e ∈ log, ∀ i, e.source = some i → i < log.length

theorem histInv_snoc {log : List Stamped} (hi : HistInv log) {e : Stamped} (h1 : e.stamp.logical ≤ log.length + 1)
    (h2 : (current log e.node).lt e.stamp) (h3 : ∀ i, e.source = some i → ∃ a, log[i]? = some a ∧ a.stamp.lt e.stamp)
    (h4 : e.now ≤ e.stamp.physical) : HistInv (log ++ [e]) := by
  refine ⟨?_, ?_, ?_, ?_, ?_, ?_⟩
  · intro x hx
    rw [List.length_append, List.length_singleton]
    rcases List.mem_append.1 hx with hx | hx
    · have := hi.small x hx; omega
    · rw [List.mem_singleton.1 hx]; exact h1
  · intro n
    rw [current_snoc, List.length_append, List.length_singleton]
    split
    · exact h1
    · have := hi.curSmall n; omega
  · intro x hx
    rw [current_snoc]
    rcases List.mem_append.1 hx with hx | hx
    · have := hi.cur x hx
      split
      · rename_i hn
        rw [hn] at h2
        intro hc
        exact this (Hlc.lt_trans h2 hc)
      · exact this
    · rw [List.mem_singleton.1 hx, if_pos rfl]; exact Hlc.lt_irrefl _
  · intro i j a b ha hb hab
    by_cases hj : j < log.length
    · rw [List.getElem?_append_left hj] at hb
      have hil : i < log.length := by
        rcases hab with ⟨h, -⟩ | h
        · omega
        · exact hi.src b (List.mem_of_getElem? hb) i h
      rw [List.getElem?_append_left hil] at ha
      exact hi.edge i j a b ha hb hab
    · have hje : j = log.length := by
        have := (List.getElem?_eq_some_iff.1 hb).1
        rw [List.length_append, List.length_singleton] at this; omega
      subst hje
      rw [List.getElem?_append_right (Nat.le_refl _), Nat.sub_self] at hb
      simp only [List.getElem?_cons_zero, Option.some.injEq] at hb
      subst hb
      rcases hab with ⟨h, hn⟩ | h
      · rw [List.getElem?_append_left h] at ha
        have := hi.cur a (List.mem_of_getElem? ha)
        rw [hn] at this
        exact Hlc.lt_of_not_lt this h2
      · obtain ⟨a', ha', hlt⟩ := h3 i h
        have hil := (List.getElem?_eq_some_iff.1 ha').1
        rw [List.getElem?_append_left hil, ha'] at ha
        cases ha
        exact hlt
  · intro x hx
    rcases List.mem_append.1 hx with hx | hx
    · exact hi.wall x hx
    · rw [List.mem_singleton.1 hx]; exact h4
  · intro x hx i hs
    rw [List.length_append, List.length_singleton]
    rcases List.mem_append.1 hx with hx | hx
    · have := hi.src x hx i hs; omega
    · rw [List.mem_singleton.1 hx] at hs
      obtain ⟨a, ha, -⟩ := h3 i hs
      have := (List.getElem?_eq_some_iff.1 ha).1; omega

theorem histInv {log : List Stamped} (h : History log) (hl : log.length < 4294967296) : HistInv log := by
  induction h with
  | nil => exact ⟨by simp, by simp [current, Hlc.zero], by simp, by simp, by simp, by simp⟩
  | @tick log n now _ ih =>
    rw [List.length_append, List.length_singleton] at hl
    have hi := ih (by omega)
    have hc := hi.curSmall n
    obtain ⟨a1, a2, a3⟩ := tick_gt (current log n) now (by omega)
    exact histInv_snoc hi (by simp only; omega) a1 (by simp) a2
  | @recv log n now i e _ hie ih =>
    rw [List.length_append, List.length_singleton] at hl
    have hi := ih (by omega)
    have hc := hi.curSmall n
    have he := hi.small e (List.mem_of_getElem? hie)
    obtain ⟨a1, a2, a3, a4⟩ := recv_gt (current log n) e.stamp now (by omega) (by omega)
    refine histInv_snoc hi (by simp only; omega) a1 ?_ a3
    intro j hj
    simp only [Option.some.injEq] at hj
    subst hj
    exact ⟨e, hie, a2⟩

/-- In every history of fewer than 2³² events, whatever the wall clocks do, an event that happened before another
has the smaller timestamp; and no timestamp is behind its own wall clock. -/
theorem C64_causality (log : List Stamped) (h : History log) (hl : log.length < 4294967296) :
    (∀ i j a b, HappensBefore log i j → log[i]? = some a → log[j]? = some b → a.stamp.lt b.stamp) ∧
      ∀ e ∈ log, e.now ≤ e.stamp.physical := by
  have hi := histInv h hl
  refine ⟨fun i j a b hb => ?_, hi.wall⟩
  induction hb generalizing b with
  | single hs =>
    obtain ⟨a', b', h1, h2, h3⟩ := hs
    intro ha hb
    rw [ha] at h1; rw [hb] at h2; cases h1; cases h2
    exact hi.edge _ _ _ _ ha hb h3
  | tail _ hs ih =>
    obtain ⟨a', b', h1, h2, h3⟩ := hs
    intro ha hb
    rw [hb] at h2; cases h2
    exact Hlc.lt_trans (ih a' ha h1) (hi.edge _ _ _ _ h1 hb h3)

/-- The physical part never runs ahead of every wall clock: it is zero or some event's wall-clock reading. -/
theorem C64_no_drift (log : List Stamped) (h : History log) :
    ∀ e ∈ log, e.stamp.physical = 0 ∨ ∃ x ∈ log, e.stamp.physical = x.now := by
  have key : (∀ e ∈ log, e.stamp.physical = 0 ∨ ∃ x ∈ log, e.stamp.physical = x.now) ∧
      ∀ n, (current log n).physical = 0 ∨ ∃ x ∈ log, (current log n).physical = x.now := by
    induction h with
    | nil => exact ⟨by simp, fun n => Or.inl rfl⟩
    | @tick log n now _ ih =>
      have hs : ((current log n).tick now).physical = 0 ∨
          ∃ x ∈ log ++ [⟨n, now, none, (current log n).tick now⟩], ((current log n).tick now).physical = x.now := by
        by_cases hm : (current log n).physical ≤ now
        · exact Or.inr ⟨_, List.mem_append_right _ (List.mem_singleton_self _), by simp only [Hlc.tick]; omega⟩
        · have e : ((current log n).tick now).physical = (current log n).physical := by simp only [Hlc.tick]; omega
          rw [e]
          exact (ih.2 n).imp id (fun ⟨x, hx, hp⟩ => ⟨x, List.mem_append_left _ hx, hp⟩)
      refine ⟨fun e he => ?_, fun m => ?_⟩
      · rcases List.mem_append.1 he with he | he
        · exact (ih.1 e he).imp id (fun ⟨x, hx, hp⟩ => ⟨x, List.mem_append_left _ hx, hp⟩)
        · rw [List.mem_singleton.1 he]; exact hs
      · rw [current_snoc]
        split
        · exact hs
        · exact (ih.2 m).imp id (fun ⟨x, hx, hp⟩ => ⟨x, List.mem_append_left _ hx, hp⟩)
    | @recv log n now i e _ hie ih =>
      have hs : ((current log n).recv e.stamp now).physical = 0 ∨
          ∃ x ∈ log ++ [⟨n, now, some i, (current log n).recv e.stamp now⟩],
            ((current log n).recv e.stamp now).physical = x.now := by
        by_cases hm : max (current log n).physical e.stamp.physical ≤ now
        · exact Or.inr ⟨_, List.mem_append_right _ (List.mem_singleton_self _), by simp only [Hlc.recv]; omega⟩
        · by_cases hm2 : e.stamp.physical ≤ (current log n).physical
          · have e : ((current log n).recv e.stamp now).physical = (current log n).physical := by
              simp only [Hlc.recv]; omega
            rw [e]
            exact (ih.2 n).imp id (fun ⟨x, hx, hp⟩ => ⟨x, List.mem_append_left _ hx, hp⟩)
          · have e' : ((current log n).recv e.stamp now).physical = e.stamp.physical := by
              simp only [Hlc.recv]; omega
            rw [e']
            exact (ih.1 e (List.mem_of_getElem? hie)).imp id (fun ⟨x, hx, hp⟩ => ⟨x, List.mem_append_left _ hx, hp⟩)
      refine ⟨fun e he => ?_, fun m => ?_⟩
      · rcases List.mem_append.1 he with he | he
        · exact (ih.1 e he).imp id (fun ⟨x, hx, hp⟩ => ⟨x, List.mem_append_left _ hx, hp⟩)
        · rw [List.mem_singleton.1 he]; exact hs
      · rw [current_snoc]
        split
        · exact hs
        · exact (ih.2 m).imp id (fun ⟨x, hx, hp⟩ => ⟨x, List.mem_append_left _ hx, hp⟩)
  exact key.1

/-- Node 1 ticks at 100, node 2 (clock at 40) receives it, node 1 receives the answer. -/
example : ∃ log, History log ∧ log.length = 3 ∧ HappensBefore log 0 2 ∧
    log.map Stamped.stamp = [⟨100, 0⟩, ⟨100, 1⟩, ⟨100, 2⟩] := by
  refine ⟨_, History.recv (n := 1) (now := 101 - 1) (i := 1) (History.recv (n := 2) (now := 40) (i := 0)
    (History.tick (n := 1) (now := 100) History.nil) rfl) rfl, rfl, ?_, by decide⟩
  exact Relation.TransGen.tail (Relation.TransGen.single ⟨_, _, rfl, rfl, Or.inr rfl⟩) ⟨_, _, rfl, rfl, Or.inr rfl⟩

/-- Repeated local events under a stopped wall clock. -/
def ticks : Nat → Hlc
  | 0 => Hlc.zero
  | k + 1 => (ticks k).tick 0

/-- **C64**: when the wall clock is ahead of everything seen, the stamp is the wall clock itself with
the counter back at zero, so the clock stays close to real time and the counter does not creep. -/
theorem C64_follows_wall (h r : Hlc) (now : Int) (hh : h.physical < now) (hr : r.physical < now) :
    h.tick now = ⟨now, 0⟩ ∧ h.recv r now = ⟨now, 0⟩ := by
  have e1 : max h.physical now = now := max_eq_right (by omega)
  have e2 : max (max h.physical r.physical) now = now := max_eq_right (max_le (by omega) (by omega))
  constructor
  · simp only [Hlc.tick, e1]
    rw [if_neg (by omega)]
  · simp only [Hlc.recv, e2]
    rw [if_neg (by omega), if_neg (by omega), if_neg (by omega)]

example : (⟨5, 9⟩ : Hlc).tick 8 = ⟨8, 0⟩ := (C64_follows_wall ⟨5, 9⟩ ⟨6, 1⟩ 8 (by decide) (by decide)).1

/-- Beyond that the counter wraps (in a build without overflow checks; with them it panics): after 2³² local events
under a stopped wall clock the timestamp is back at zero. -/
theorem C64_counter_wraps_fails : ticks 4294967296 = Hlc.zero ∧ ¬ (ticks 4294967295).lt (ticks 4294967296) := by
  have h : ∀ k < 4294967296, ticks k = ⟨0, k⟩ := by
    intro k hk
    induction k with
    | zero => rfl
    | succ k ih =>
      rw [ticks, ih (by omega)]
      simp only [Hlc.tick, bump]
      rw [if_pos (by decide), Nat.mod_eq_of_lt hk]
      rfl
  have h1 := h 4294967295 (by decide)
  have h2 : ticks 4294967296 = (ticks 4294967295).tick 0 := rfl
  rw [h2, h1]
  decide

/-! ## C65: `SyncClock` -/

/-- Equality of clocks as the program sees it: the timestamp, and what is known about each node. -/
def Same (c d : SyncClock) : Prop := c.hlc = d.hlc ∧ ∀ n, c.knowledge.get? n = d.knowledge.get? n

/-- `merge` is commutative, associative and idempotent. -/
theorem C65_lattice (a b c : SyncClock) :
    Same (a.merge b) (b.merge a) ∧ Same ((a.merge b).merge c) (a.merge (b.merge c)) ∧ Same (a.merge a) a := by
  refine ⟨⟨Hlc.max_comm _ _, fun n => ?_⟩, ⟨Hlc.max_assoc _ _ _, fun n => ?_⟩, ⟨Hlc.max_self _, fun n => ?_⟩⟩
  · rw [merge_get, merge_get, joinIv_comm]
  · rw [merge_get, merge_get, merge_get, merge_get, joinIv_assoc]
  · rw [merge_get, joinIv_self]

/-- The clocks a program can build, with the list of all observations that went into them. -/
inductive Observed : SyncClock → List (Nat × Interval) → Prop
  | new : Observed SyncClock.new []
  | tick {c obs now} : Observed c obs → Observed (c.tick now) obs
  | observe {c obs n iv} : Observed c obs → Observed (c.observe n iv) (obs ++ [(n, iv)])
  | merge {c d obs obs'} : Observed c obs → Observed d obs' → Observed (c.merge d) (obs ++ obs')

theorem contains_intersect (a b : Interval) (t : Int) :
    (a.intersect b).contains t = true ↔ a.contains t = true ∧ b.contains t = true := by
  simp only [Interval.intersect, Interval.contains, Bool.and_eq_true, decide_eq_true_eq, max_le_iff, le_min_iff]
  constructor
  · rintro ⟨⟨a, b⟩, c, d⟩; exact ⟨⟨a, c⟩, b, d⟩
  · rintro ⟨⟨a, b⟩, c, d⟩; exact ⟨⟨a, c⟩, b, d⟩

/-- What a clock knows about a node is exactly the intersection of all observations of that node: the interval
contains just the times every observation allows, and there is one as soon as there was an observation. -/
theorem C65_knowledge (c : SyncClock) (obs : List (Nat × Interval)) (h : Observed c obs) (n : Nat) :
    (c.knowledge.get? n = none ↔ ∀ iv, (n, iv) ∉ obs) ∧
      ∀ iv, c.knowledge.get? n = some iv → ∀ t, iv.contains t = true ↔ ∀ iv', (n, iv') ∈ obs → iv'.contains t = true := by
  induction h with
  | new => exact ⟨by simp [SyncClock.new, HMap.get?_empty], by simp [SyncClock.new, HMap.get?_empty]⟩
  | tick _ ih => exact ih
  | @observe c obs m iv _ ih =>
    obtain ⟨ih1, ih2⟩ := ih
    simp only [SyncClock.observe, learn_get, List.mem_append, List.mem_singleton, Prod.mk.injEq]
    by_cases hm : m = n
    · subst hm
      simp only [if_true, true_and]
      constructor
      · constructor
        · intro h; cases h
        · intro h; exact absurd (Or.inr rfl) (h iv)
      · intro iv' h t
        rw [Option.some.injEq] at h
        cases hg : c.knowledge.get? m with
        | none =>
          rw [hg] at h
          simp only [Option.elim] at h
          subst h
          constructor
          · rintro ht iv' (h | rfl)
            · exact absurd h (ih1.1 hg iv')
            · exact ht
          · intro h; exact h iv (Or.inr rfl)
        | some old =>
          rw [hg] at h
          simp only [Option.elim] at h
          subst h
          rw [contains_intersect, ih2 old hg t]
          constructor
          · rintro ⟨h1, h2⟩ iv' (h | rfl)
            · exact h1 iv' h
            · exact h2
          · intro h; exact ⟨fun iv' h' => h iv' (Or.inl h'), h iv (Or.inr rfl)⟩
    · have hm' : ¬ n = m := fun h => hm h.symm
      simp only [hm, hm', if_false, false_and, or_false]
      exact ⟨ih1, ih2⟩
  | @merge c d obs obs' _ _ ih ih' =>
    obtain ⟨a1, a2⟩ := ih
    obtain ⟨b1, b2⟩ := ih'
    rw [merge_get]
    simp only [List.mem_append]
    cases hc : c.knowledge.get? n with
    | none =>
      have n1 := a1.1 hc
      simp only [joinIv]
      refine ⟨b1.trans (forall_congr' fun iv => by simp [n1 iv]), fun iv h t => (b2 iv h t).trans (forall_congr' fun iv' => by simp [n1 iv'])⟩
    | some x =>
      have nx : ∃ iv, (n, iv) ∈ obs := by
        by_contra hcon
        push Not at hcon
        rw [a1.2 hcon] at hc; cases hc
      obtain ⟨ivx, hivx⟩ := nx
      cases hd : d.knowledge.get? n with
      | none =>
        have n2 := b1.1 hd
        simp only [joinIv]
        refine ⟨⟨fun h => (by cases h), fun h => absurd (Or.inl hivx) (h ivx)⟩, fun iv h t => ?_⟩
        rw [Option.some.injEq] at h
        subst h
        exact (a2 x hc t).trans (forall_congr' fun iv' => by simp [n2 iv'])
      | some y =>
        simp only [joinIv]
        refine ⟨⟨fun h => (by cases h), fun h => absurd (Or.inl hivx) (h ivx)⟩, fun iv h t => ?_⟩
        rw [Option.some.injEq] at h
        subst h
        rw [contains_intersect, a2 x hc t, b2 y hd t]
        constructor
        · rintro ⟨h1, h2⟩ iv' (h | h)
          · exact h1 iv' h
          · exact h2 iv' h
        · intro h; exact ⟨fun iv' h' => h iv' (Or.inl h'), fun iv' h' => h iv' (Or.inr h')⟩

/-- If all observations of a node contain its true time, so does what any clock built from them knows. -/
theorem C65_truth (c : SyncClock) (obs : List (Nat × Interval)) (h : Observed c obs) (n : Nat) (truth : Int)
    (ht : ∀ iv, (n, iv) ∈ obs → iv.contains truth = true) (iv : Interval) (hk : c.knowledge.get? n = some iv) :
    iv.contains truth = true := ((C65_knowledge c obs h n).2 iv hk truth).2 ht

/-- Observation and merging never widen: every time still possible afterwards was possible before, nothing known is
forgotten, and the timestamp never goes back. -/
theorem C65_never_widens (c d : SyncClock) (m n : Nat) (o iv : Interval) (hk : c.knowledge.get? n = some iv) :
    (∃ iv', (c.observe m o).knowledge.get? n = some iv' ∧ ∀ t, iv'.contains t = true → iv.contains t = true) ∧
    (∃ iv', (c.merge d).knowledge.get? n = some iv' ∧ ∀ t, iv'.contains t = true → iv.contains t = true) ∧
    ¬ (c.observe m o).hlc.lt c.hlc ∧ ¬ (c.merge d).hlc.lt c.hlc := by
  refine ⟨?_, ?_, Hlc.lt_irrefl _, ?_⟩
  · simp only [SyncClock.observe, learn_get]
    by_cases hm : m = n
    · subst hm
      rw [if_pos rfl, hk]
      exact ⟨_, rfl, fun t h => ((contains_intersect _ _ _).1 h).1⟩
    · rw [if_neg hm]; exact ⟨iv, hk, fun _ h => h⟩
  · rw [merge_get, hk]
    cases d.knowledge.get? n with
    | none => exact ⟨iv, rfl, fun _ h => h⟩
    | some y => exact ⟨_, rfl, fun t h => ((contains_intersect _ _ _).1 h).1⟩
  · change ¬ (c.hlc.max d.hlc).lt c.hlc
    unfold Hlc.max
    by_cases hd : d.hlc.lt c.hlc
    · rw [if_pos hd]; exact Hlc.lt_irrefl _
    · rw [if_neg hd]; exact hd

/-- Two replicas observing node 7 end up with the intersection. -/
example : Observed ((SyncClock.new.observe 7 ⟨0, 10⟩).merge (SyncClock.new.observe 7 ⟨5, 20⟩)) ([(7, ⟨0, 10⟩)] ++ [(7, ⟨5, 20⟩)]) ∧
    ((SyncClock.new.observe 7 ⟨0, 10⟩).merge (SyncClock.new.observe 7 ⟨5, 20⟩)).knowledge.get? 7 = some ⟨5, 10⟩ := by
  refine ⟨.merge (.observe .new) (.observe .new), ?_⟩
  rw [merge_get]
  decide

end Verif.Props
