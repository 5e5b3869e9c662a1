import Verif.Crdt.SeqView
/-!
# C11, C12, C13: replicated sequences (RGA and YATA)
-/
namespace Verif.Props
open Verif.Crdt Verif.Crdt.Seq

abbrev RGA (T : Type) := Seq Unit T
abbrev YATA (T : Type) := Seq (Option SeqId) T

/-! ## Local edits, for either type (used below for C11 and C13) -/

/-- Local edits act on the visible list as list edits. -/
structure ListEdits {X T : Type} (M : Impl X T) (s : Seq X T) : Prop where
  append : ∀ v, (s.append M v).toVec M = s.toVec M ++ [v]
  insert_before : ∀ i v, i ≤ s.len M →
    (s.insertBefore M i v).toVec M = (s.toVec M).take i ++ v :: (s.toVec M).drop i
  insert_after : ∀ i v, i < s.len M →
    (s.insertAfter M i v).toVec M = (s.toVec M).take (i + 1) ++ v :: (s.toVec M).drop (i + 1)
  remove : ∀ i, (s.remove M i).toVec M = (s.toVec M).eraseIdx i
  get : ∀ i, s.get M i = (s.toVec M)[i]?
  len : s.len M = (s.toVec M).length

theorem listEdits_of {X T : Type} {M : Impl X T} (L : Lawful M) {s : Seq X T} (h : SI s) :
    ListEdits M s := by
  have after : ∀ i v, i < s.len M →
      (s.insertAfter M i v).toVec M = (s.toVec M).take (i + 1) ++ v :: (s.toVec M).drop (i + 1) := by
    intro i v hi
    have hp : s.visibleIdAt M i = some ((s.visible M)[i]'hi).id := by
      rw [visibleIdAt, List.getElem?_eq_getElem hi]; rfl
    have := h.vis_after L (o := .insertAfter i v) (i := i) rfl (by exact hp) hp
    simp only [Seq.apply] at this
    simp only [toVec, this, List.map_append, List.map_cons, List.map_take, List.map_drop]
  refine ⟨?_, ?_, after, ?_, ?_, ?_⟩
  · intro v
    cases hl : s.lastVisibleId M with
    | none =>
      have hv : s.visible M = [] := by
        simpa [lastVisibleId] using hl
      have := h.vis_head L (o := .append v) rfl (by exact hl)
      simp only [Seq.apply] at this
      simp only [toVec, this, hv]; rfl
    | some p =>
      have hp : s.visibleIdAt M ((s.visible M).length - 1) = some p := by
        rw [← hl, visibleIdAt, lastVisibleId, List.getLast?_eq_getElem?]
      have hne : 0 < (s.visible M).length := by
        rcases Nat.eq_zero_or_pos (s.visible M).length with h0 | h0
        · rw [List.length_eq_zero_iff] at h0; simp [lastVisibleId, h0] at hl
        · exact h0
      have := h.vis_after L (o := .append v) rfl (by exact hl) hp
      simp only [Seq.apply] at this
      have hlen : (s.visible M).length - 1 + 1 = (s.visible M).length := by omega
      rw [hlen, List.take_length, List.drop_length] at this
      simp only [toVec, this, List.map_append]; rfl
  · intro i v hi
    cases i with
    | zero =>
      have := h.vis_head L (o := .insertBefore 0 v) rfl rfl
      simp only [Seq.apply] at this
      simp only [toVec, this, List.map_cons]; rfl
    | succ i => exact after i v hi
  · intro i
    cases hp : s.visibleIdAt M i with
    | none =>
      have : s.len M ≤ i := by simpa [visibleIdAt, Seq.len] using hp
      rw [List.eraseIdx_of_length_le (by simpa [toVec, Seq.len] using this)]
      simp [Seq.remove, hp]
    | some p => rw [toVec, h.vis_target L hp, toVec, List.eraseIdx_map]
  · intro i; simp [Seq.get, toVec]
  · simp [Seq.len, toVec]

/-! ## C11 — RGA: local edits are list edits -/

/-- In every state a replica can be in, `append`, `insert_before`, `insert_after` and `remove` do to the
visible list what the list operations of the same name do; `get` and `len` read that list. (`eraseIdx`
beyond the end changes nothing.) -/
theorem C11_edits_are_list_edits {T : Type} {w : World (RGA T) (Seq.Op T)}
    (h : Reachable (Seq.rdt rgaImpl) w) {c : Copy (RGA T)} (hc : w.Live c) :
    ListEdits rgaImpl c.state :=
  listEdits_of rga_lawful ((seq_inv rga_lawful h).live c hc).2.si

/-- Not list-like, and worth knowing: inserting after an index beyond the end puts the element at the
front. -/
theorem C11_out_of_range_goes_to_front {T : Type} {w : World (RGA T) (Seq.Op T)}
    (h : Reachable (Seq.rdt rgaImpl) w) {c : Copy (RGA T)} (hc : w.Live c) (i : Nat) (v : T)
    (hi : c.state.len rgaImpl ≤ i) :
    (c.state.insertAfter rgaImpl i v).toVec rgaImpl = v :: c.state.toVec rgaImpl := by
  have hs := ((seq_inv rga_lawful h).live c hc).2.si
  have hp : c.state.visibleIdAt rgaImpl i = none := by simpa [visibleIdAt, Seq.len] using hi
  have := hs.vis_head rga_lawful (o := .insertAfter i v) rfl (by exact hp)
  simp only [Seq.apply] at this
  simp only [toVec, this, List.map_cons]

/-- a replica with a tombstone and nested inserts -/
example :
    let s0 : RGA Nat := ((Seq.new 1).append rgaImpl 10).append rgaImpl 20
    let s1 := (s0.insertAfter rgaImpl 0 15).remove rgaImpl 2
    let s2 := (s1.append rgaImpl 30).insertBefore rgaImpl 0 5
    s2.toVec rgaImpl = [5, 10, 15, 30] := by decide +kernel

/-! ## C12 — RGA: convergence -/

/-- What the visible lists of a system of replicated sequences must look like, without reference to how
they are represented: there is an assignment of a list of insert operations to every set of received
operations such that

* every copy shows the inserted values of the list assigned to what it received (so copies that received
  the same show the same);
* the list contains exactly the received inserts that no received remove hit, each once, where a remove
  at index `k` hits the element its issuer saw at `k` (so nothing else is ever lost or duplicated);
* any two lists agree on the order of the elements they have in common (so merging never reorders). -/
def SequenceSpec {X T : Type} (M : Impl X T) (w : World (Seq X T) (Seq.Op T)) : Prop :=
  ∃ view : Set Ev → List Ev,
    (∀ c, Known w c →
      (c.state.toVec M).map some = (view c.seen).map (fun e => (w.issue? e).bind (fun i => i.op.inserts)) ∧
      (view c.seen).Nodup ∧
      ∀ e, e ∈ view c.seen ↔ e ∈ c.seen ∧ (∃ i v, w.issue? e = some i ∧ i.op.inserts = some v) ∧
        ¬ ∃ f ∈ c.seen, ∃ i k, w.issue? f = some i ∧ i.op = .remove k ∧ (view i.past)[k]? = some e) ∧
    (∀ c d, Known w c → Known w d →
      (view c.seen).filter (fun e => decide (e ∈ view d.seen)) =
        (view d.seen).filter (fun e => decide (e ∈ view c.seen)))

theorem sequenceSpec_of {X T : Type} {M : Impl X T} (L : Lawful M) {w : World (Seq X T) (Seq.Op T)}
    (h : Reachable (Seq.rdt M) w) : SequenceSpec M w := by
  refine ⟨view M w, ?_, ?_⟩
  · intro c hc
    rw [view_eq L h hc]
    refine ⟨viewOf_values L h hc, viewOf_nodup L h hc, ?_⟩
    intro e
    rw [viewOf_mem L h hc]
    have : ∀ f i, w.issue? f = some i → view M w i.past = viewOf M w ⟨i.pre, i.past⟩ :=
      fun f i hi => view_eq L h (c := ⟨i.pre, i.past⟩) (Or.inr ⟨f, i, hi, rfl⟩)
    constructor
    · rintro ⟨h1, h2, h3⟩
      refine ⟨h1, h2, ?_⟩
      rintro ⟨f, hf, i, k, hi, ho, hv⟩
      exact h3 ⟨f, hf, i, k, hi, ho, by rw [← this f i hi]; exact hv⟩
    · rintro ⟨h1, h2, h3⟩
      refine ⟨h1, h2, ?_⟩
      rintro ⟨f, hf, i, k, hi, ho, hv⟩
      exact h3 ⟨f, hf, i, k, hi, ho, by rw [this f i hi]; exact hv⟩
  · intro c d hc hd
    rw [view_eq L h hc, view_eq L h hd]
    exact viewOf_order L h hc hd

theorem C12_sequence_spec {T : Type} {w : World (RGA T) (Seq.Op T)}
    (h : Reachable (Seq.rdt rgaImpl) w) : SequenceSpec rgaImpl w := sequenceSpec_of rga_lawful h

/-- Copies that received the same operations show the same list. -/
theorem C12_convergence {T : Type} {w : World (RGA T) (Seq.Op T)} (h : Reachable (Seq.rdt rgaImpl) w)
    {c d : Copy (RGA T)} (hc : w.Live c) (hd : w.Live d) (same : c.seen = d.seen) :
    c.state.toVec rgaImpl = d.state.toVec rgaImpl := by
  have hI := seq_inv rga_lawful h
  simp only [toVec, (hI.live c hc).2.agree rga_lawful hI.hist (hI.live d hd).2 same]

theorem merge_laws_of {X T : Type} {M : Impl X T} (L : Lawful M) {w : World (Seq X T) (Seq.Op T)}
    (h : Reachable (Seq.rdt M) w) {a b c : Copy (Seq X T)} (ha : w.Live a) (hb : w.Live b) (hc : w.Live c) :
    (a.state.merge b.state).toVec M = (b.state.merge a.state).toVec M ∧
    ((a.state.merge b.state).merge c.state).toVec M = (a.state.merge (b.state.merge c.state)).toVec M ∧
    (a.state.merge a.state).toVec M = a.state.toVec M := by
  have hI := seq_inv L h
  obtain ⟨ga, ia⟩ := hI.live a ha
  obtain ⟨gb, ib⟩ := hI.live b hb
  obtain ⟨gc, ic⟩ := hI.live c hc
  have hab := ia.merge L hI.hist ga gb ib
  have hba := ib.merge L hI.hist gb ga ia
  have hbc := ib.merge L hI.hist gb gc ic
  have gab : Good w.issue? ⟨a.state.merge b.state, a.seen ∪ b.seen⟩ := ga.union gb
  have gbc : Good w.issue? ⟨b.state.merge c.state, b.seen ∪ c.seen⟩ := gb.union gc
  have habc := hab.merge L hI.hist gab gc ic
  have habc' := ia.merge L hI.hist ga gbc hbc
  have haa := ia.merge L hI.hist ga ga ia
  simp only [toVec]
  refine ⟨?_, ?_, ?_⟩
  · rw [hab.agree L hI.hist hba (Set.union_comm _ _)]
  · rw [habc.agree L hI.hist habc' (Set.union_assoc _ _ _)]
  · rw [haa.agree L hI.hist ia (Set.union_self _)]

/-- Merging any copies that can occur is commutative, associative and idempotent on the visible list. -/
theorem C12_merge_laws {T : Type} {w : World (RGA T) (Seq.Op T)} (h : Reachable (Seq.rdt rgaImpl) w)
    {a b c : Copy (RGA T)} (ha : w.Live a) (hb : w.Live b) (hc : w.Live c) :
    (a.state.merge b.state).toVec rgaImpl = (b.state.merge a.state).toVec rgaImpl ∧
    ((a.state.merge b.state).merge c.state).toVec rgaImpl =
      (a.state.merge (b.state.merge c.state)).toVec rgaImpl ∧
    (a.state.merge a.state).toVec rgaImpl = a.state.toVec rgaImpl :=
  merge_laws_of rga_lawful h ha hb hc

/-- two replicas insert concurrently behind the same element and one removes it -/
example : ∃ w : World (RGA Nat) (Seq.Op Nat), Reachable (Seq.rdt rgaImpl) w ∧
    (w.node 1).state.toVec rgaImpl = [22, 11] ∧ (w.node 2).state.toVec rgaImpl = [10, 22] := by
  have s0 := Reachable.start (T := Seq.rdt (T := Nat) rgaImpl)
  have s1 := s0.step (Step.op _ 1 (.append 10))
  have s2 := s1.step (Step.send _ 1)
  have s3 := s2.step (Step.recv _ 2 _ (Set.mem_insert _ _))
  have s4 := s3.step (Step.op _ 2 (.append 22))
  have s5 := s4.step (Step.op _ 1 (.append 11))
  have s6 := s5.step (Step.op _ 1 (.remove 0))
  have s7 := s6.step (Step.send _ 2)
  have s8 := s7.step (Step.recv _ 1 _ (Set.mem_insert _ _))
  refine ⟨_, s8, ?_, ?_⟩ <;> decide +kernel

/-! ## C13 — YATA -/

theorem C13_edits_are_list_edits {T : Type} {w : World (YATA T) (Seq.Op T)}
    (h : Reachable (Seq.rdt yataImpl) w) {c : Copy (YATA T)} (hc : w.Live c) :
    ListEdits yataImpl c.state :=
  listEdits_of yata_lawful ((seq_inv yata_lawful h).live c hc).2.si

theorem C13_sequence_spec {T : Type} {w : World (YATA T) (Seq.Op T)}
    (h : Reachable (Seq.rdt yataImpl) w) : SequenceSpec yataImpl w := sequenceSpec_of yata_lawful h

theorem C13_convergence {T : Type} {w : World (YATA T) (Seq.Op T)} (h : Reachable (Seq.rdt yataImpl) w)
    {c d : Copy (YATA T)} (hc : w.Live c) (hd : w.Live d) (same : c.seen = d.seen) :
    c.state.toVec yataImpl = d.state.toVec yataImpl := by
  have hI := seq_inv yata_lawful h
  simp only [toVec, (hI.live c hc).2.agree yata_lawful hI.hist (hI.live d hd).2 same]

theorem C13_merge_laws {T : Type} {w : World (YATA T) (Seq.Op T)} (h : Reachable (Seq.rdt yataImpl) w)
    {a b c : Copy (YATA T)} (ha : w.Live a) (hb : w.Live b) (hc : w.Live c) :
    (a.state.merge b.state).toVec yataImpl = (b.state.merge a.state).toVec yataImpl ∧
    ((a.state.merge b.state).merge c.state).toVec yataImpl =
      (a.state.merge (b.state.merge c.state)).toVec yataImpl ∧
    (a.state.merge a.state).toVec yataImpl = a.state.toVec yataImpl :=
  merge_laws_of yata_lawful h ha hb hc

example : ∃ w : World (YATA Nat) (Seq.Op Nat), Reachable (Seq.rdt yataImpl) w ∧
    (w.node 1).state.toVec yataImpl = [22, 11] ∧ (w.node 2).state.toVec yataImpl = [10, 22] := by
  have s0 := Reachable.start (T := Seq.rdt (T := Nat) yataImpl)
  have s1 := s0.step (Step.op _ 1 (.append 10))
  have s2 := s1.step (Step.send _ 1)
  have s3 := s2.step (Step.recv _ 2 _ (Set.mem_insert _ _))
  have s4 := s3.step (Step.op _ 2 (.append 22))
  have s5 := s4.step (Step.op _ 1 (.append 11))
  have s6 := s5.step (Step.op _ 1 (.remove 0))
  have s7 := s6.step (Step.send _ 2)
  have s8 := s7.step (Step.recv _ 1 _ (Set.mem_insert _ _))
  refine ⟨_, s8, ?_, ?_⟩ <;> decide +kernel

/-! ## C67 — sequence deltas -/

/-- Removing an element leaves nothing to send, so a peer that is asked for deltas never learns. -/
theorem C67_rga_delta_loses_removal :
    let a0 : RGA Nat := (Seq.new 1).append rgaImpl 7
    let b : RGA Nat := (Seq.new 2).merge a0
    let a := a0.remove rgaImpl 0
    (a.rgaDelta b.version).isNone = true ∧ b.toVec rgaImpl = [7] ∧ (b.merge a).toVec rgaImpl = [] := by
  decide +kernel

/-- Even a delta that is handed out leaves out the tombstones of older elements. -/
theorem C67_rga_delta_not_merge :
    let a0 : RGA Nat := (Seq.new 1).append rgaImpl 7
    let b : RGA Nat := (Seq.new 2).merge a0
    let a := (a0.remove rgaImpl 0).append rgaImpl 8
    (a.rgaDelta b.version).map (fun d => (b.applyDelta d).toVec rgaImpl) = some [8, 7] ∧
    (b.merge a).toVec rgaImpl = [8] := by
  decide +kernel

/-- YATA hands out everything or nothing: what it hands out acts as a merge… -/
theorem C67_yata_delta_is_merge {T : Type} (a b : YATA T) (v : VClock) (d)
    (h : a.yataDelta v = some d) : b.applyDelta d = b.merge a := by
  simp only [yataDelta] at h
  split at h
  · cases h
  · injection h with h; subst h; rfl

/-- …but a removal alone is still "nothing to send". -/
theorem C67_yata_delta_loses_removal :
    let a0 : YATA Nat := (Seq.new 1).append yataImpl 7
    let b : YATA Nat := (Seq.new 2).merge a0
    let a := a0.remove yataImpl 0
    (a.yataDelta b.version).isNone = true ∧ b.toVec yataImpl = [7] ∧ (b.merge a).toVec yataImpl = [] := by
  decide +kernel

end Verif.Props
