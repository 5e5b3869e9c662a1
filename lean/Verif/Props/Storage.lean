import Verif.Store.Counter
import Verif.Store.Dist
import Verif.Store.Crc
/-!
# Crash safety of persistent values (C31, C32, C33, C71)

`logicaffeine_system/src/storage/mod.rs`, `distributed.rs` and `fs/mod.rs`.  A history is a list of events
(`Ev`, `CountEv` in `Store/Node.lean`, `Store/Counter.lean`): acknowledged mutations, compactions, restarts
and crashes at any byte.  `Recovers` (`Store/Spec.lean`) says which states a history may end in, without
mentioning the journal.
-/
namespace Verif.Props
open Verif.Store Verif.Crdt

variable {T : Type} {c : Codec T} {merge : T → T → T} {Same : T → T → Prop}

/-- C31: after any history without an earlier cut-off append, a process that dies in a mutation with any
number `k` of bytes of the entry on the disk mounts again, to the state before the mutation or the state
after it; and the state before it is the one given by all acknowledged mutations. -/
theorem C31_crash_recovers (hE : Equivalence Same) (d0 : T) (es : List (Ev T)) (hn : noCut es)
    (hl : Lawful c merge Same d0 (.fresh d0) es) :
    ∃ x, (Node.fresh d0).run c merge es = .ok x ∧ Recovers Same d0 es x.mem ∧
      ∀ f k d, EvOk c merge Same d0 x (.crashMutate f k d) →
        ∃ y, x.step c merge (.crashMutate f k d) = .ok y ∧
          (Same y.mem x.mem ∨ Same y.mem (f x.mem)) ∧
          ((entry c (.delta (f x.mem))).length ≤ k → Same y.mem (f x.mem)) := by
  obtain ⟨x, ex, hx⟩ := run_whole hE es (.fresh d0) .fresh hl hn
  obtain ⟨x', ex', rx⟩ := run_ok hE es false (.fresh d0) d0 (hE.refl _) .fresh hl (noCut_tornFree es hn)
  rw [ex] at ex'
  cases ex'
  refine ⟨x, ex, rx, fun f k d hok => ?_⟩
  obtain ⟨y, ey, _, h1, h2⟩ := crash_cases hE hx hok
  refine ⟨y, ey, ?_, fun hk => h2 (by omega)⟩
  by_cases hk : k < (entry c (.delta (f x.mem))).length
  · exact .inl (h1 hk)
  · exact .inr (h2 hk)

/-- C31 for a persistent `GCounter`, with its real encoding and nothing assumed but that the numbers fit:
whatever the history of increments, compactions, restarts and crashes between operations, a crash at
any byte of the next increment leaves the sum of the acknowledged increments, or that plus the new one. -/
theorem C31_counter (id0 : Rid) (hid0 : id0 < 2 ^ 64) (es : List CountEv)
    (hn : noCut (es.map CountEv.ev)) (a k : Nat) (id : Rid)
    (hids : idsFit (es ++ [CountEv.crashIncrement a k id]))
    (hsum : ackedSum es + a < 2 ^ 64) (hlen : es.length < 268435450) :
    ∃ y, (Node.fresh (GCounter.new id0)).run counterCodec GCounter.merge
        ((es ++ [CountEv.crashIncrement a k id]).map CountEv.ev) = .ok y ∧
      (y.mem.value = ackedSum es ∨ y.mem.value = ackedSum es + a) := by
  have hc : ∀ l : List CountEv, noCut (l.map CountEv.ev) → crashedSum l = 0 := by
    intro l
    induction l with
    | nil => intro _; rfl
    | cons e l ih =>
      intro h
      have h' : noCut (l.map CountEv.ev) := fun f k d hm => h f k d (List.mem_cons_of_mem _ hm)
      cases e with
      | crashIncrement n k id => exact absurd (List.mem_cons_self ..) (h _ _ _)
      | _ => exact ih h'
  have hs : ∀ l : List CountEv, ackedSum (l ++ [CountEv.crashIncrement a k id]) = ackedSum l ∧
      crashedSum (l ++ [CountEv.crashIncrement a k id]) = crashedSum l + a := by
    intro l
    induction l with
    | nil => exact ⟨rfl, by simp [crashedSum]⟩
    | cons e l ih =>
      have h1 := ih.1
      have h2 := ih.2
      cases e <;> constructor <;> simp only [List.cons_append, ackedSum, crashedSum] <;> omega
  have ht : ∀ (l : List CountEv) b, noCut (l.map CountEv.ev) → b = false →
      tornFree b ((l ++ [CountEv.crashIncrement a k id]).map CountEv.ev) := by
    intro l
    induction l with
    | nil => intro b _ hb; exact ⟨hb, trivial⟩
    | cons e l ih =>
      intro b h hb
      subst hb
      have h' : noCut (l.map CountEv.ev) := fun f k d hm => h f k d (List.mem_cons_of_mem _ hm)
      cases e with
      | crashIncrement n k id => exact absurd (List.mem_cons_self ..) (h _ _ _)
      | increment n => exact ⟨rfl, ih false h' rfl⟩
      | compact => exact ih false h' rfl
      | restart id => exact ih false h' rfl
      | crashCompact r k id => exact ih _ h' (by simp)
  have hf := ht es false hn rfl
  have hr : Room 0 0 (GCounter.new id0) := ⟨by simp [GCounter.new, HMap.empty], hid0, by simp [GCounter.value, GCounter.new, HMap.values, HMap.empty], by simp [GCounter.new, HMap.empty]⟩
  have hL := counter_lawful (i := id0) rfl hid0 (es ++ [CountEv.crashIncrement a k id]) false
    (.fresh (GCounter.new id0)) 0 0 .fresh hr hids (by rw [(hs es).1, (hs es).2, hc es hn]; omega)
    (by rw [List.length_append, List.length_singleton]; omega) hf
  obtain ⟨y, ey, ry⟩ := run_ok sameCounts_equiv _ false (.fresh (GCounter.new id0)) (GCounter.new id0)
    (sameCounts_equiv.refl _) .fresh hL hf
  refine ⟨y, ey, ?_⟩
  have hz : (GCounter.new id0).value = 0 := by simp [GCounter.value, GCounter.new, HMap.values, HMap.empty]
  -- one crash at the end: the value is one of the two ends of the interval
  have key : ∀ (l : List CountEv) (s : GCounter), noCut (l.map CountEv.ev) →
      Recovers SameCounts s ((l ++ [CountEv.crashIncrement a k id]).map CountEv.ev) y.mem →
      y.mem.value = s.value + ackedSum l ∨ y.mem.value = s.value + ackedSum l + a := by
    intro l
    induction l with
    | nil =>
      intro s _ h
      cases h with
      | crashLost h => cases h with | nil h => exact .inl (by simp [ackedSum, same_value h])
      | crashKept hs h =>
        cases h with
        | nil h => exact .inr (by rw [← same_value h, value_increment, same_value hs]; simp [ackedSum])
    | cons e l ih =>
      intro s hn h
      have h' : noCut (l.map CountEv.ev) := fun f k d hm => hn f k d (List.mem_cons_of_mem _ hm)
      cases e with
      | increment n =>
        cases h with
        | mutate hs h =>
          have := ih _ h' h
          rw [value_increment, ← same_value hs] at this
          simp only [ackedSum]; omega
      | compact => cases h with | compact h => exact ih _ h' h
      | restart id => cases h with | restart h => exact ih _ h' h
      | crashIncrement n k id => exact absurd (List.mem_cons_self ..) (hn _ _ _)
      | crashCompact r k id => cases h with | crashCompact h => exact ih _ h' h
  have := key es _ hn ry
  omega

/-- A history that meets the hypotheses, and what it leaves: `3 + 4` acknowledged, `5` cut off. -/
example : noCut ([CountEv.increment 3, .compact, .increment 4, .restart 9].map CountEv.ev) ∧
    ∃ y, (Node.fresh (GCounter.new 7)).run counterCodec GCounter.merge
      (([CountEv.increment 3, .compact, .increment 4, .restart 9] ++ [CountEv.crashIncrement 5 30 2]).map CountEv.ev) =
        .ok y := by
  have h1 : noCut ([CountEv.increment 3, .compact, .increment 4, .restart 9].map CountEv.ev) := by
    intro f k d; simp [CountEv.ev]
  refine ⟨h1, ?_⟩
  obtain ⟨y, e, _⟩ := C31_counter 7 (by decide) _ h1 5 30 2
    (by simp only [idsFit, List.cons_append, List.nil_append]; decide) (by decide) (by decide)
  exact ⟨y, e⟩

/-- C32, for histories in which no append follows a cut-off append before a compaction has rewritten the
journal: every mount succeeds, and after any number of crashes, restarts and compactions the state is
that of the acknowledged mutations, each interrupted mutation being kept or not.

Missing: histories that append after a cut-off append; see `C32_silent_loss_fails`. -/
theorem C32_durable_partial (hE : Equivalence Same) (d0 : T) (es : List (Ev T)) (ht : tornFree false es)
    (hl : Lawful c merge Same d0 (.fresh d0) es) :
    ∃ y, (Node.fresh d0).run c merge es = .ok y ∧ Recovers Same d0 es y.mem :=
  run_ok hE es false (.fresh d0) d0 (hE.refl _) .fresh hl ht

/-- C32 for a persistent `GCounter` (same restriction): the value is at least the sum of the acknowledged
increments and at most that plus the interrupted ones. -/
theorem C32_counter_partial (id0 : Rid) (hid0 : id0 < 2 ^ 64) (es : List CountEv)
    (ht : tornFree false (es.map CountEv.ev)) (hids : idsFit es)
    (hsum : ackedSum es + crashedSum es < 2 ^ 64) (hlen : es.length < 268435450) :
    ∃ y, (Node.fresh (GCounter.new id0)).run counterCodec GCounter.merge (es.map CountEv.ev) = .ok y ∧
      ackedSum es ≤ y.mem.value ∧ y.mem.value ≤ ackedSum es + crashedSum es := by
  have hr : Room 0 0 (GCounter.new id0) := ⟨by simp [GCounter.new, HMap.empty], hid0, by simp [GCounter.value, GCounter.new, HMap.values, HMap.empty], by simp [GCounter.new, HMap.empty]⟩
  have hL := counter_lawful (i := id0) rfl hid0 es false (.fresh (GCounter.new id0)) 0 0 .fresh hr hids
    (by omega) (by omega) ht
  obtain ⟨y, ey, ry⟩ := run_ok sameCounts_equiv _ false (.fresh (GCounter.new id0)) (GCounter.new id0)
    (sameCounts_equiv.refl _) .fresh hL ht
  have := recovers_value es _ _ ry
  have hz : (GCounter.new id0).value = 0 := by simp [GCounter.value, GCounter.new, HMap.values, HMap.empty]
  exact ⟨y, ey, by omega, by omega⟩

example : tornFree false ([CountEv.increment 3, .crashIncrement 4 20 1, .compact, .increment 5,
    .crashCompact false 3 4, .increment 6, .crashIncrement 7 1 8, .restart 9].map CountEv.ev) := by
  simp [CountEv.ev, tornFree]

/-- The general hypotheses of `C31_crash_recovers`, `C32_durable_partial` and `C33_compact_crash_partial`
hold of this history. -/
example : Equivalence SameCounts ∧ Lawful counterCodec GCounter.merge SameCounts (.new 5) (.fresh (.new 5))
    ([CountEv.increment 3, .crashIncrement 4 20 1, .compact, .increment 5].map CountEv.ev) :=
  ⟨sameCounts_equiv, counter_lawful (i := 5) rfl (by decide) _ false _ 0 0 .fresh
    ⟨by simp [Node.fresh, GCounter.new, HMap.empty], by decide, by decide, by decide⟩
    (by simp only [idsFit]; decide) (by decide) (by decide) (by simp [CountEv.ev, tornFree])⟩

/-- What a mount yields, as a value; `none` when it fails. -/
def mountedValue (r : Res (GCounter × Nat)) : Option Nat :=
  match r with
  | .ok (g, _) => some g.value
  | .err _ => none

/-- C32 fails: an acknowledged increment of 100 made after a crash that left one byte is not there after
the next mount, which reports no error. -/
theorem C32_silent_loss_fails : ∃ (es : List CountEv) (y : Node GCounter),
    (Node.fresh (GCounter.new 1)).run counterCodec GCounter.merge (es.map CountEv.ev) = .ok y ∧
      ackedSum es = 103 ∧ y.mem.value = 103 ∧
      mountedValue (mount counterCodec GCounter.merge (GCounter.new 1) y.file) = some 3 := by
  have h : (match (Node.fresh (GCounter.new 1)).run counterCodec GCounter.merge
      ([CountEv.increment 3, .crashIncrement 4 1 1, .increment 100].map CountEv.ev) with
      | .ok y => decide (y.mem.value = 103) && decide (mountedValue (mount counterCodec GCounter.merge (GCounter.new 1) y.file) = some 3)
      | .err _ => false) = true := by decide +kernel
  revert h
  generalize hr : (Node.fresh (GCounter.new 1)).run counterCodec GCounter.merge
      ([CountEv.increment 3, .crashIncrement 4 1 1, .increment 100].map CountEv.ev) = r
  intro h
  cases r with
  | err e => cases h
  | ok y =>
    simp only [Bool.and_eq_true, decide_eq_true_eq] at h
    exact ⟨_, y, hr, rfl, h.1, h.2⟩

/-- C32 fails: after a crash that left all but one byte of an entry, one more acknowledged increment makes
the journal unmountable. -/
theorem C32_unmountable_fails : ∃ (es : List CountEv) (y : Node GCounter),
    (Node.fresh (GCounter.new 1)).run counterCodec GCounter.merge (es.map CountEv.ev) = .ok y ∧
      ackedSum es = 103 ∧ mount counterCodec GCounter.merge (GCounter.new 1) y.file = .err (.corrupted 1) := by
  have h : (match (Node.fresh (GCounter.new 1)).run counterCodec GCounter.merge
      ([CountEv.increment 3, .crashIncrement 4 43 1, .increment 100].map CountEv.ev) with
      | .ok y => (match mount counterCodec GCounter.merge (GCounter.new 1) y.file with
        | .ok _ => false
        | .err e => decide (e = .corrupted 1))
      | .err _ => false) = true := by decide +kernel
  revert h
  generalize hr : (Node.fresh (GCounter.new 1)).run counterCodec GCounter.merge
      ([CountEv.increment 3, .crashIncrement 4 43 1, .increment 100].map CountEv.ev) = r
  intro h
  cases r with
  | err e => cases h
  | ok y =>
    simp only at h
    generalize hm : mount counterCodec GCounter.merge (GCounter.new 1) y.file = m at h
    cases m with
    | ok _ => cases h
    | err e =>
      simp only [decide_eq_true_eq] at h
      exact ⟨_, y, hr, rfl, by rw [hm, h]⟩

/-- C33, one task: compacting leaves the state alone, and a mount after it, or after a crash at any point
inside it (any number of bytes of the temporary file written, or the rename just done), gives the
state in memory at the time.

Missing: other tasks running at the same time; see `C33_concurrent_partial` and `C33_race_fails`. -/
theorem C33_compact_crash_partial (hE : Equivalence Same) (d0 : T) (es : List (Ev T)) (hn : noCut es)
    (hl : Lawful c merge Same d0 (.fresh d0) es) :
    ∃ x, (Node.fresh d0).run c merge es = .ok x ∧
      (x.compact c).mem = x.mem ∧ (x.compact c).count = 1 ∧
      (Fits c (.snapshot x.mem) → ∀ d, Same d d0 →
        (∃ s, mount c merge d (x.compact c).file = .ok (s, 1) ∧ Same s x.mem) ∧
        ∀ renamed k, ∃ y, x.step c merge (.crashCompact renamed k d) = .ok y ∧ Same y.mem x.mem) := by
  obtain ⟨x, ex, hx⟩ := run_whole hE es (.fresh d0) .fresh hl hn
  refine ⟨x, ex, rfl, rfl, fun hf d hd => ⟨?_, ?_⟩⟩
  · refine ⟨x.mem, ?_, hE.refl _⟩
    have := replay_journal_eq (c := c) (merge := merge) [.snapshot x.mem] (by simpa using hf) stops_nil d
    simpa [Node.compact, mount, Op.apply] using this
  · intro renamed k
    cases renamed with
    | true =>
      obtain ⟨s, e, hs, _⟩ := (Holds.snapshot (c := c) (merge := merge) (d0 := d0) hE hf).boot d hd none hE
      exact ⟨_, e, hs⟩
    | false =>
      obtain ⟨s, e, hs, _⟩ := hx.boot d hd (some ((entry c (.snapshot x.mem)).take k)) hE
      exact ⟨_, e, hs⟩

/-- C33 with any number of tasks mutating, receiving and compacting, in any order of their steps and with
any number of crashes: if no append falls between the two halves of a compaction, then at every moment
— also when the next append is cut off at any byte — a mount succeeds and gives a state that includes
every acknowledged one and nothing that was not in memory.

Missing: an append between the two halves of a compaction; see `C33_race_fails`. -/
theorem C33_concurrent_partial {Le : T → T → Prop} (L : JoinLaws merge Le) {x : DNode T}
    (h : DReach c merge Le True x) (d : T) (hd : ∀ a, Le d a) :
    (∃ m n, mount c merge d (some x.file) = .ok (m, n) ∧ (∀ a ∈ x.acked, Le a m) ∧ Le m x.mem) ∧
    ∀ p ∈ x.pending, Fits c (.delta p) → ∀ k < (entry c (.delta p)).length,
      ∃ m n, mount c merge d (some (x.file ++ (entry c (.delta p)).take k)) = .ok (m, n) ∧
        (∀ a ∈ x.acked, Le a m) ∧ Le m x.mem := by
  obtain ⟨hi, _⟩ := dinv L h
  refine ⟨?_, fun p _ hf k hk => dinv_mount hi d hd (fun n => nextEntry_prefix hf n hk)⟩
  have := dinv_mount hi d hd (stops_nil (c := c))
  rwa [List.append_nil] at this

/-- The order of counters: every replica's count. -/
def countsLe (a b : GCounter) : Prop := ∀ r, a.counts.getD r 0 ≤ b.counts.getD r 0

/-- `GCounter` meets the hypotheses of `C33_concurrent_partial`, with its empty counters below everything. -/
theorem counter_joinLaws : JoinLaws GCounter.merge countsLe where
  refl _ _ := Nat.le_refl _
  trans _ _ _ h h' r := Nat.le_trans (h r) (h' r)
  left a b r := by simp only [GCounter.merge, getD_mergeCounts]; exact Nat.le_max_left _ _
  right a b r := by simp only [GCounter.merge, getD_mergeCounts]; exact Nat.le_max_right _ _
  least a b u h h' r := by simp only [GCounter.merge, getD_mergeCounts]; exact Nat.max_le.2 ⟨h r, h' r⟩

theorem counter_bottom (i : Rid) (a : GCounter) : countsLe (.new i) a := fun _ => Nat.zero_le _

theorem le_increment (n : Nat) (g : GCounter) : countsLe g (g.increment n) := by
  intro r
  simp only [GCounter.increment, HMap.getD_upsert]
  split <;> omega

theorem fits_five : CounterFits ((GCounter.new 1).increment 5) :=
  (Room.increment (t := 0) (n := 0) ⟨by simp [GCounter.new, HMap.empty], by decide, by decide, by decide⟩).fits
    (by decide) (by decide)

/-- A reachable state with an acknowledged mutation and two mutations in flight. -/
example : ∃ x : DNode GCounter, DReach counterCodec GCounter.merge countsLe True x ∧
    x.acked.length = 1 ∧ x.pending.length = 2 ∧ x.snaps.length = 1 := by
  refine ⟨_, (((DReach.append 0 _ ((DReach.start (d := GCounter.new 1) (counter_bottom 1)).mutate
    (GCounter.increment 5) (le_increment _ _)) rfl (fits_counter fits_five false) (fun _ => rfl)).clone).mutate
    (GCounter.increment 2) (le_increment _ _)).receive (GCounter.increment 3 (.new 2)), rfl, rfl, rfl⟩

/-- C33 fails: a compaction copies the state, an increment of 5 is appended and acknowledged, the
compaction writes — and the next mount has lost the 5.  (The steps respect the lock of `Persistent`: the
copy is complete before the mutation takes it.) -/
theorem C33_race_fails : ∃ x : DNode GCounter, DReach counterCodec GCounter.merge countsLe False x ∧
    (∃ a ∈ x.acked, a.value = 5) ∧
    mountedValue (mount counterCodec GCounter.merge (GCounter.new 1) (some x.file)) = some 0 := by
  have hf0 : CounterFits (GCounter.new 1) :=
    Room.fits (t := 0) (n := 0) ⟨by simp [GCounter.new, HMap.empty], by decide, by decide, by decide⟩
      (by decide) (by decide)
  refine ⟨_, DReach.write 0 (GCounter.new 1) (DReach.append 0 _ (((DReach.start (d := GCounter.new 1)
    (counter_bottom 1)).clone).mutate (GCounter.increment 5) (le_increment _ _)) rfl
    (fits_counter fits_five false) (fun h => h.elim)) rfl (fits_counter hf0 true), ⟨_, List.mem_cons_self .., by decide⟩, ?_⟩
  decide +kernel

/-- C71: in a journal of whole entries, changing any one byte of any payload makes the mount fail with an
error naming the entry; no state is returned.

Missing: the length field; see `C71_length_byte_fails`.  (Checksum bytes: `C71_checksum_bytes_partial`.) -/
theorem C71_payload_byte_partial (before : List (Op T)) (op : Op T) (hb : ∀ o ∈ before, Fits c o) (hop : Fits c op)
    (l r : Bytes) (x y : Byte) (hp : c.ser op = l ++ x :: r) (hne : y ≠ x) (after : Bytes) (d : T) :
    mount c merge d (some (before.flatMap (entry c) ++ (header (c.ser op) ++ (l ++ y :: r) ++ after))) =
      .err (.corrupted before.length) := by
  have hlen : (l ++ y :: r).length = (c.ser op).length := by rw [hp]; simp
  have hnext : ∀ n, nextEntry c n (header (c.ser op) ++ (l ++ y :: r) ++ after) = .fail (.corrupted n) := by
    intro n
    simp only [header, u32Bytes, List.cons_append, List.nil_append, List.append_assoc]
    unfold nextEntry
    simp only [u32_roundtrip, ofNat_toNat_small hop.2]
    have hge : ¬ (l ++ (y :: (r ++ after))).length < (c.ser op).length := by
      rw [← hlen]; simp
    rw [if_neg hge]
    rw [show l ++ (y :: (r ++ after)) = (l ++ y :: r) ++ after by simp, ← hlen, List.take_left]
    unfold openPayload
    rw [if_pos]
    rw [hp]
    exact crc32_byte l r hne
  exact mount_fail before hb hnext d

/-- C71: changing the stored checksum of an entry in any way makes the mount fail likewise. -/
theorem C71_checksum_bytes_partial (before : List (Op T)) (op : Op T) (hb : ∀ o ∈ before, Fits c o) (hop : Fits c op)
    (crc : BitVec 32) (hne : crc ≠ crc32 (c.ser op)) (after : Bytes) (d : T) :
    mount c merge d (some (before.flatMap (entry c) ++
      (u32Bytes (BitVec.ofNat 32 (c.ser op).length) ++ u32Bytes crc ++ c.ser op ++ after))) =
      .err (.corrupted before.length) := by
  apply mount_fail before hb _ d
  intro n
  simp only [u32Bytes, List.cons_append, List.nil_append]
  unfold nextEntry
  simp only [u32_roundtrip, ofNat_toNat_small hop.2]
  rw [if_neg (by simp), List.take_left]
  unfold openPayload
  rw [if_pos (fun h => hne h.symm)]

/-- A payload of a real entry, and another byte for one of its positions. -/
example : ∃ (op : Op GCounter) (l r : Bytes) (x y : Byte), Fits counterCodec op ∧
    counterCodec.ser op = l ++ x :: r ∧ y ≠ x :=
  ⟨.delta ((GCounter.new 1).increment 5), [], _, 1#8, 2#8, fits_counter fits_five false, rfl, by decide⟩

/-- C71 fails for the length field: one changed byte there, and the mount returns an empty counter without
an error although the journal holds an acknowledged increment. -/
theorem C71_length_byte_fails : ∃ (file bad : Bytes) (i : Nat) (b : Byte), bad = file.set i b ∧
    mountedValue (mount counterCodec GCounter.merge (GCounter.new 1) (some file)) = some 5 ∧
    mountedValue (mount counterCodec GCounter.merge (GCounter.new 1) (some bad)) = some 0 :=
  ⟨entry counterCodec (.delta ((GCounter.new 1).increment 5)), _, 1, 1, rfl, by decide +kernel, by decide +kernel⟩

end Verif.Props
