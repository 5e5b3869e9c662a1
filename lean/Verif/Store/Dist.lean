import Verif.Store.Lemmas
/-!
# Concurrent use of a persistent value — `Persistent<T>` and `Distributed<T>` with several tasks

`mutate`, the receive loop and `compact` of `distributed.rs` and `storage/mod.rs` are split at the points
where another task can run: between the change of the state in memory and the append to the journal, and
between the copy of the state and the write of the compacted journal.  One append, and one
write-and-rename, is a single step.
-/
namespace Verif.Store
variable {T : Type}

/-- The shared state: `inner`, the journal, the states changed in memory but not yet appended, the copies
taken by compactions that have not yet written, and (as a record) the states whose append has returned. -/
structure DNode (T : Type) where
  mem : T
  file : Bytes
  pending : List T
  snaps : List T
  acked : List T

/-- First half of `mutate` (distributed.rs:232-237, storage/mod.rs:204-205). -/
def DNode.mutate (f : T → T) (x : DNode T) : DNode T :=
  { x with mem := f x.mem, pending := f x.mem :: x.pending }

/-- First half of the receive loop (distributed.rs:283-294): a delta from the network. -/
def DNode.receive (merge : T → T → T) (d : T) (x : DNode T) : DNode T :=
  { x with mem := merge x.mem d, pending := d :: x.pending }

/-- The append (distributed.rs:239, 306-314, 327-343; storage/mod.rs:207-217), after which `mutate`
returns. -/
def DNode.append (c : Codec T) (i : Nat) (p : T) (x : DNode T) : DNode T :=
  { x with file := x.file ++ entry c (.delta p), pending := x.pending.eraseIdx i, acked := p :: x.acked }

/-- First half of `compact` and `maybe_compact` (distributed.rs:263, 349; storage/mod.rs:224): the state is
copied and the lock released. -/
def DNode.clone (x : DNode T) : DNode T := { x with snaps := x.mem :: x.snaps }

/-- Second half of `compact` (distributed.rs:353-370, storage/mod.rs:226-236): the journal is replaced. -/
def DNode.write (c : Codec T) (i : Nat) (s : T) (x : DNode T) : DNode T :=
  { x with file := entry c (.snapshot s), snaps := x.snaps.eraseIdx i }

/-- A mount after the process died between two steps. -/
def DNode.reboot (m : T) (x : DNode T) : DNode T := { x with mem := m, pending := [], snaps := [] }

/-- The order of a CRDT's states: `merge` is the least upper bound. -/
structure JoinLaws (merge : T → T → T) (Le : T → T → Prop) : Prop where
  refl : ∀ a, Le a a
  trans : ∀ a b c, Le a b → Le b c → Le a c
  left : ∀ a b, Le a (merge a b)
  right : ∀ a b, Le b (merge a b)
  least : ∀ a b u, Le a u → Le b u → Le (merge a b) u

/-- The states reachable by any interleaving of mutations, received deltas, compactions and crashes.
With `tidy`, no append falls between the two halves of a compaction. -/
inductive DReach (c : Codec T) (merge : T → T → T) (Le : T → T → Prop) (tidy : Prop) :
    DNode T → Prop
  | start {d} : (∀ a, Le d a) → DReach c merge Le tidy ⟨d, [], [], [], []⟩
  | mutate {x} (f : T → T) : DReach c merge Le tidy x → Le x.mem (f x.mem) →
      DReach c merge Le tidy (x.mutate f)
  | receive {x} (d : T) : DReach c merge Le tidy x → DReach c merge Le tidy (x.receive merge d)
  | append {x} (i : Nat) (p : T) : DReach c merge Le tidy x → x.pending[i]? = some p → Fits c (.delta p) →
      (tidy → x.snaps = []) → DReach c merge Le tidy (x.append c i p)
  | clone {x} : DReach c merge Le tidy x → DReach c merge Le tidy x.clone
  | write {x} (i : Nat) (s : T) : DReach c merge Le tidy x → x.snaps[i]? = some s → Fits c (.snapshot s) →
      DReach c merge Le tidy (x.write c i s)
  | crash {x} (d m : T) (n : Nat) : DReach c merge Le tidy x → (∀ a, Le d a) →
      mount c merge d (some x.file) = .ok (m, n) → DReach c merge Le tidy (x.reboot m)

/-! ## The invariant -/
variable {c : Codec T} {merge : T → T → T} {Le : T → T → Prop}

abbrev foldOps (merge : T → T → T) (ops : List (Op T)) (d : T) : T :=
  ops.foldl (fun a o => o.apply merge a) d

theorem fold_mono (L : JoinLaws merge Le) (ops : List (Op T)) {a b : T} (h : Le a b) :
    Le (foldOps merge ops a) (foldOps merge ops b) := by
  induction ops generalizing a b with
  | nil => exact h
  | cons o ops ih =>
    apply ih
    cases o with
    | snapshot s => exact L.refl s
    | delta d => exact L.least _ _ _ (L.trans _ _ _ h (L.left _ _)) (L.right _ _)

structure DInv (c : Codec T) (merge : T → T → T) (Le : T → T → Prop) (x : DNode T) : Prop where
  journal : ∃ ops : List (Op T), x.file = ops.flatMap (entry c) ∧ (∀ o ∈ ops, Fits c o) ∧
    (∀ d, (∀ a, Le d a) → Le (foldOps merge ops d) x.mem) ∧
    ∀ d, ∀ a ∈ x.acked, Le a (foldOps merge ops d)
  pending : ∀ p ∈ x.pending, Le p x.mem
  snapsMem : ∀ s ∈ x.snaps, Le s x.mem
  snapsAcked : ∀ s ∈ x.snaps, ∀ a ∈ x.acked, Le a s

theorem fold_le_append (L : JoinLaws merge Le) (ops : List (Op T)) (p d : T) :
    Le (foldOps merge ops d) (foldOps merge (ops ++ [.delta p]) d) ∧
      Le p (foldOps merge (ops ++ [.delta p]) d) := by
  simp only [foldOps, List.foldl_append, List.foldl_cons, List.foldl_nil, Op.apply]
  exact ⟨L.left _ _, L.right _ _⟩

theorem DInv.acked_mem (L : JoinLaws merge Le) {x : DNode T} (h : DInv c merge Le x) {d : T}
    (hd : ∀ a, Le d a) : ∀ a ∈ x.acked, Le a x.mem := by
  obtain ⟨ops, _, _, h1, h2⟩ := h.journal
  exact fun a ha => L.trans _ _ _ (h2 d a ha) (h1 d hd)

theorem dinv (L : JoinLaws merge Le) {x : DNode T} (h : DReach c merge Le True x) :
    DInv c merge Le x ∧ ∃ d, ∀ a, Le d a := by
  induction h with
  | start hd =>
    exact ⟨⟨⟨[], rfl, by simp, fun d' hd' => hd' _, by simp⟩, by simp, by simp, by simp⟩, _, hd⟩
  | @mutate x f _ hf ih =>
    obtain ⟨⟨⟨ops, h1, h2, h3, h4⟩, hp, hs, ha⟩, hb⟩ := ih
    refine ⟨⟨⟨ops, h1, h2, fun d hd => L.trans _ _ _ (h3 d hd) hf, h4⟩, ?_, ?_, ha⟩, hb⟩
    · intro p hm
      rcases List.mem_cons.1 hm with e | hm
      · subst e; exact L.refl _
      · exact L.trans _ _ _ (hp p hm) hf
    · exact fun s hm => L.trans _ _ _ (hs s hm) hf
  | @receive x d _ ih =>
    obtain ⟨⟨⟨ops, h1, h2, h3, h4⟩, hp, hs, ha⟩, hb⟩ := ih
    refine ⟨⟨⟨ops, h1, h2, fun d' hd => L.trans _ _ _ (h3 d' hd) (L.left _ _), h4⟩, ?_, ?_, ha⟩, hb⟩
    · intro p hm
      rcases List.mem_cons.1 hm with e | hm
      · subst e; exact L.right _ _
      · exact L.trans _ _ _ (hp p hm) (L.left _ _)
    · exact fun s hm => L.trans _ _ _ (hs s hm) (L.left _ _)
  | @append x i p _ hm hf ht ih =>
    have hm := List.mem_of_getElem? hm
    obtain ⟨⟨⟨ops, h1, h2, h3, h4⟩, hp, hs, ha⟩, hb⟩ := ih
    refine ⟨⟨⟨ops ++ [.delta p], ?_, ?_, ?_, ?_⟩, ?_, hs, ?_⟩, hb⟩
    · simp [DNode.append, h1]
    · intro o ho
      rcases List.mem_append.1 ho with ho | ho
      · exact h2 o ho
      · rw [List.mem_singleton.1 ho]; exact hf
    · intro d hd
      simp only [foldOps, List.foldl_append, List.foldl_cons, List.foldl_nil, Op.apply]
      exact L.least _ _ _ (h3 d hd) (hp p hm)
    · intro d a hA
      rcases List.mem_cons.1 hA with e | hA
      · subst e; exact (fold_le_append L ops a d).2
      · exact L.trans _ _ _ (h4 d a hA) (fold_le_append L ops p d).1
    · exact fun q hq => hp q (List.mem_of_mem_eraseIdx hq)
    · intro s hsn
      rw [show (x.append c i p).snaps = x.snaps from rfl, ht trivial] at hsn
      cases hsn
  | @clone x _ ih =>
    obtain ⟨h, hb⟩ := ih
    obtain ⟨d, hd⟩ := hb
    refine ⟨⟨h.journal, h.pending, ?_, ?_⟩, d, hd⟩
    · intro s hm
      rcases List.mem_cons.1 hm with e | hm
      · subst e; exact L.refl _
      · exact h.snapsMem s hm
    · intro s hm
      rcases List.mem_cons.1 hm with e | hm
      · subst e; exact h.acked_mem L hd
      · exact h.snapsAcked s hm
  | @write x i s _ hm hf ih =>
    have hm := List.mem_of_getElem? hm
    obtain ⟨h, hb⟩ := ih
    refine ⟨⟨⟨[.snapshot s], by simp [DNode.write], by simpa using hf, ?_, ?_⟩, h.pending, ?_, ?_⟩, hb⟩
    · exact fun _ _ => h.snapsMem s hm
    · exact fun _ a ha => h.snapsAcked s hm a ha
    · exact fun s' hs' => h.snapsMem s' (List.mem_of_mem_eraseIdx hs')
    · exact fun s' hs' => h.snapsAcked s' (List.mem_of_mem_eraseIdx hs')
  | @crash x d m n _ hd hmount ih =>
    obtain ⟨⟨⟨ops, h1, h2, h3, h4⟩, hp, hs, ha⟩, hb⟩ := ih
    have e := replay_journal_eq (merge := merge) ops h2 (stops_nil (c := c)) d
    rw [List.append_nil, ← h1] at e
    have hmm : foldOps merge ops d = m := by
      have := e.symm.trans hmount
      cases this; rfl
    refine ⟨⟨⟨ops, h1, h2, ?_, h4⟩, by simp [DNode.reboot], by simp [DNode.reboot], by simp [DNode.reboot]⟩, hb⟩
    intro d' hd'
    show Le (foldOps merge ops d') m
    rw [← hmm]
    exact fold_mono L ops (hd' d)

/-- Whatever is on the disk, also a cut-off last append, mounts to a state between what was acknowledged
and what was in memory. -/
theorem dinv_mount {x : DNode T} (h : DInv c merge Le x) (d : T)
    (hd : ∀ a, Le d a) {tail : Bytes} (ht : Stops c tail) :
    ∃ m n, mount c merge d (some (x.file ++ tail)) = .ok (m, n) ∧ (∀ a ∈ x.acked, Le a m) ∧ Le m x.mem := by
  obtain ⟨ops, h1, h2, h3, h4⟩ := h.journal
  refine ⟨foldOps merge ops d, ops.length, ?_, h4 d, h3 d hd⟩
  rw [mount, h1, replay_journal_eq ops h2 ht]

end Verif.Store
