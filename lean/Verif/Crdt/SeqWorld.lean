import Verif.Crdt.SeqOrder
import Verif.Crdt.WorldInv
/-! # Replicated sequences: local edits and the world invariant (helper lemmas) -/
namespace Verif.Crdt.Seq
variable {X T : Type}

/-! ## Local edits on the document order -/

theorem vis_ins {p : SeqId} {n : SeqNode X T} (hn : n.deleted = false) :
    ∀ (l : List (SeqNode X T)) (i : Nat), (l.map SeqNode.id).Nodup →
    ((l.filter (fun n => !n.deleted))[i]?).map SeqNode.id = some p →
    (ins (some p) n l).filter (fun n => !n.deleted) =
      (l.filter (fun n => !n.deleted)).take (i + 1) ++ n :: (l.filter (fun n => !n.deleted)).drop (i + 1) := by
  intro l
  induction l with
  | nil => intro i _ h; simp at h
  | cons a t ih =>
    intro i nd h
    rw [List.map_cons, List.nodup_cons] at nd
    have hin : ∀ (j : Nat), ((t.filter (fun n => !n.deleted))[j]?).map SeqNode.id = some p → a.id ≠ p := by
      intro j hj e
      rw [Option.map_eq_some_iff] at hj
      obtain ⟨m, hm, hmp⟩ := hj
      have hm' := (List.mem_filter.1 (List.mem_of_getElem? hm)).1
      exact nd.1 (List.mem_map.2 ⟨m, hm', by rw [hmp, e]⟩)
    simp only [ins, List.flatMap_cons]
    cases hd : a.deleted with
    | true =>
      have hf : (a :: t).filter (fun n => !n.deleted) = t.filter (fun n => !n.deleted) := by simp [hd]
      rw [hf] at h ⊢
      have ha := hin i h
      rw [if_neg (by simpa using ha), List.filter_append, List.filter_cons, if_neg (by simp [hd])]
      exact ih i nd.2 h
    | false =>
      have hf : (a :: t).filter (fun n => !n.deleted) = a :: t.filter (fun n => !n.deleted) := by simp [hd]
      rw [hf] at h ⊢
      cases i with
      | zero =>
        have ha : a.id = p := by simpa using h
        rw [if_pos (by rw [ha])]
        have hno : ∀ x ∈ t, ¬ some x.id = some p := by
          intro x hx e; injection e with e
          exact nd.1 (List.mem_map.2 ⟨x, hx, by rw [e, ha]⟩)
        have : t.flatMap (fun x => if some x.id = some p then [x, n] else [x]) = t := by
          clear ih nd hin hf h
          induction t with
          | nil => rfl
          | cons b t ih =>
            rw [List.flatMap_cons, if_neg (hno b (by simp)), ih (fun x hx => hno x (by simp [hx]))]; rfl
        rw [this]
        simp [hd, hn]
      | succ j =>
        have h' : ((t.filter (fun n => !n.deleted))[j]?).map SeqNode.id = some p := by simpa using h
        have ha := hin j h'
        rw [if_neg (by simpa using ha)]
        have := ih j nd.2 h'
        simp only [ins] at this
        rw [List.filter_append, this]; simp [hd]

/-- flag one id -/
def flag (p : SeqId) (n : SeqNode X T) : SeqNode X T := if n.id = p then { n with deleted := true } else n

@[simp] theorem flag_id (p : SeqId) (n : SeqNode X T) : (flag p n).id = n.id := by
  simp only [flag]; split <;> rfl
@[simp] theorem flag_parent (p : SeqId) (n : SeqNode X T) : (flag p n).parent = n.parent := by
  simp only [flag]; split <;> rfl

theorem markFirst_eq {p : SeqId} : ∀ {l : List (SeqNode X T)}, (l.map SeqNode.id).Nodup →
    markFirst p l = l.map (flag p) := by
  intro l
  induction l with
  | nil => intro _; rfl
  | cons a t ih =>
    intro nd
    rw [List.map_cons, List.nodup_cons] at nd
    rw [markFirst, List.map_cons]
    by_cases h : a.id = p
    · rw [if_pos h, flag, if_pos h]
      congr 1
      have : ∀ x ∈ t, flag p x = x := by
        intro x hx
        rw [flag, if_neg]
        intro e; exact nd.1 (List.mem_map.2 ⟨x, hx, by rw [e, h]⟩)
      conv_lhs => rw [← List.map_id t]
      exact (List.map_congr_left this).symm
    · rw [if_neg h, ih nd.2, flag, if_neg h]

theorem vis_flag {p : SeqId} : ∀ (l : List (SeqNode X T)) (i : Nat), (l.map SeqNode.id).Nodup →
    ((l.filter (fun n => !n.deleted))[i]?).map SeqNode.id = some p →
    (l.map (flag p)).filter (fun n => !n.deleted) = (l.filter (fun n => !n.deleted)).eraseIdx i := by
  intro l
  induction l with
  | nil => intro i _ h; simp at h
  | cons a t ih =>
    intro i nd h
    rw [List.map_cons, List.nodup_cons] at nd
    have hin : ∀ (j : Nat), ((t.filter (fun n => !n.deleted))[j]?).map SeqNode.id = some p → a.id ≠ p := by
      intro j hj e
      rw [Option.map_eq_some_iff] at hj
      obtain ⟨m, hm, hmp⟩ := hj
      have hm' := (List.mem_filter.1 (List.mem_of_getElem? hm)).1
      exact nd.1 (List.mem_map.2 ⟨m, hm', by rw [hmp, e]⟩)
    cases hd : a.deleted with
    | true =>
      rw [List.filter_cons, if_neg (by simp [hd])] at h ⊢
      have ha := hin i h
      rw [List.map_cons, List.filter_cons, if_neg (by simp [flag, ha, hd])]
      exact ih i nd.2 h
    | false =>
      rw [List.filter_cons, if_pos (by simp [hd])] at h ⊢
      cases i with
      | zero =>
        have ha : a.id = p := by simpa using h
        rw [List.map_cons, List.filter_cons, if_neg (by simp [flag, ha])]
        have : ∀ x ∈ t, flag p x = x := by
          intro x hx
          rw [flag, if_neg]
          intro e; exact nd.1 (List.mem_map.2 ⟨x, hx, by rw [e, ha]⟩)
        rw [List.map_congr_left this]
        simp
      | succ j =>
        have h' : ((t.filter (fun n => !n.deleted))[j]?).map SeqNode.id = some p := by simpa using h
        have ha := hin j h'
        rw [List.map_cons, List.filter_cons, if_pos (by simp [flag, ha, hd]), ih j nd.2 h']
        simp [flag, ha]

/-- State invariant: well-formed nodes and a clock not behind any of them. -/
structure SI (s : Seq X T) : Prop where
  wf : WF s.nodes
  clock : ∀ n ∈ s.nodes, n.id.ts ≤ s.timestamp

/-- the node an operation creates -/
def newNode (M : Impl X T) : Op T → Seq X T → Option (SeqNode X T)
  | .append v, s => some ⟨⟨s.timestamp + 1, s.replicaId⟩, v, false, s.lastVisibleId M, M.extra s.nodes none⟩
  | .insertAfter i v, s =>
    some ⟨⟨s.timestamp + 1, s.replicaId⟩, v, false, s.visibleIdAt M i, M.extra s.nodes (some (i + 1))⟩
  | .insertBefore 0 v, s => some ⟨⟨s.timestamp + 1, s.replicaId⟩, v, false, none, M.extra s.nodes (some 0)⟩
  | .insertBefore (i + 1) v, s =>
    some ⟨⟨s.timestamp + 1, s.replicaId⟩, v, false, s.visibleIdAt M i, M.extra s.nodes (some (i + 1))⟩
  | .remove _, _ => none

/-- the element an operation removes -/
def target (M : Impl X T) : Op T → Seq X T → Option SeqId
  | .remove i, s => s.visibleIdAt M i
  | _, _ => none

theorem apply_new {M : Impl X T} {o : Op T} {s : Seq X T} {n} (h : newNode M o s = some n) :
    apply M o s = ⟨s.nodes ++ [n], s.timestamp + 1, s.replicaId⟩ := by
  cases o with
  | append v => simp only [newNode, Option.some.injEq] at h; subst h; rfl
  | insertAfter i v => simp only [newNode, Option.some.injEq] at h; subst h; rfl
  | insertBefore i v => cases i <;> (simp only [newNode, Option.some.injEq] at h; subst h; rfl)
  | remove i => simp [newNode] at h

theorem apply_target {M : Impl X T} {o : Op T} {s : Seq X T} {p} (h : target M o s = some p) :
    apply M o s = ⟨markFirst p s.nodes, s.timestamp, s.replicaId⟩ := by
  cases o with
  | remove i => simp only [target] at h; simp [apply, remove, h]
  | append v => simp [target] at h
  | insertAfter i v => simp [target] at h
  | insertBefore i v => simp [target] at h

theorem apply_none {M : Impl X T} {o : Op T} {s : Seq X T} (h : newNode M o s = none)
    (h' : target M o s = none) : apply M o s = s := by
  cases o with
  | remove i => simp only [target] at h'; simp [apply, remove, h']
  | append v => simp [newNode] at h
  | insertAfter i v => simp [newNode] at h
  | insertBefore i v => cases i <;> simp [newNode] at h

theorem newNode_target {M : Impl X T} {o : Op T} {s : Seq X T} {n} (h : newNode M o s = some n) :
    target M o s = none := by
  cases o with
  | remove i => simp [newNode] at h
  | _ => rfl

theorem visibleIdAt_mem {M : Impl X T} (L : Lawful M) {s : Seq X T} (h : WF s.nodes) {i p}
    (hp : s.visibleIdAt M i = some p) : ∃ m ∈ s.nodes, m.id = p := by
  rw [visibleIdAt, Option.map_eq_some_iff] at hp
  obtain ⟨m, hm, e⟩ := hp
  exact ⟨m, (L.sorted_perm h).mem_iff.1 (List.mem_filter.1 (List.mem_of_getElem? hm)).1, e⟩

theorem target_mem {M : Impl X T} (L : Lawful M) {o : Op T} {s : Seq X T} (h : WF s.nodes) {p}
    (hp : target M o s = some p) : ∃ m ∈ s.nodes, m.id = p := by
  cases o with
  | remove i => exact visibleIdAt_mem L h hp
  | append v => simp [target] at hp
  | insertAfter i v => simp [target] at hp
  | insertBefore i v => simp [target] at hp

theorem newNode_spec {M : Impl X T} (L : Lawful M) {o : Op T} {s : Seq X T} (h : WF s.nodes) {n}
    (hn : newNode M o s = some n) : n.id = ⟨s.timestamp + 1, s.replicaId⟩ ∧ n.deleted = false ∧
      ∀ p, n.parent = some p → ∃ m ∈ s.nodes, m.id = p := by
  cases o with
  | append v =>
    simp only [newNode, Option.some.injEq] at hn; subst hn
    refine ⟨rfl, rfl, ?_⟩
    intro p hp
    simp only [lastVisibleId, List.getLast?_eq_getElem?] at hp
    exact visibleIdAt_mem L h hp
  | insertAfter i v =>
    simp only [newNode, Option.some.injEq] at hn; subst hn
    exact ⟨rfl, rfl, fun p hp => visibleIdAt_mem L h hp⟩
  | insertBefore i v =>
    cases i with
    | zero =>
      simp only [newNode, Option.some.injEq] at hn; subst hn
      exact ⟨rfl, rfl, fun p hp => by simp at hp⟩
    | succ i =>
      simp only [newNode, Option.some.injEq] at hn; subst hn
      exact ⟨rfl, rfl, fun p hp => visibleIdAt_mem L h hp⟩
  | remove i => simp [newNode] at hn

theorem SI.newest {M : Impl X T} (L : Lawful M) {o : Op T} {s : Seq X T} (h : SI s) {n}
    (hn : newNode M o s = some n) : Newest n s.nodes (s.nodes ++ [n]) := by
  obtain ⟨h1, h2, h3⟩ := newNode_spec L h.wf hn
  have hlt : ∀ m ∈ s.nodes, m.id.lt n.id := by
    intro m hm
    rw [SeqId.lt_iff, h1]; have := h.clock m hm; simp only; omega
  refine ⟨⟨?_, ?_⟩, List.perm_append_singleton _ _, ?_⟩
  · rw [List.map_append, List.nodup_append]
    refine ⟨h.wf.nodup, by simp, ?_⟩
    intro a ha b hb e
    obtain ⟨m, hm, rfl⟩ := List.mem_map.1 ha
    simp only [List.map_cons, List.map_nil, List.mem_singleton] at hb
    have := hlt m hm
    rw [e, hb, SeqId.lt_iff] at this; omega
  · intro m hm p hp
    rcases List.mem_append.1 hm with hm | hm
    · obtain ⟨⟨k, hk, e⟩, hl⟩ := h.wf.parent m hm p hp
      exact ⟨⟨k, List.mem_append_left _ hk, e⟩, hl⟩
    · rw [List.mem_singleton] at hm; subst hm
      obtain ⟨k, hk, e⟩ := h3 p hp
      exact ⟨⟨k, List.mem_append_left _ hk, e⟩, by rw [← e]; exact hlt k hk⟩
  · intro m hm
    have := hlt m hm
    rw [SeqId.lt_iff] at this; rw [SeqId.le_iff]; omega

theorem SI.sorted_nodup {M : Impl X T} (L : Lawful M) {s : Seq X T} (h : SI s) :
    ((M.sorted s.nodes).map SeqNode.id).Nodup :=
  ((L.sorted_perm h.wf).map _).nodup_iff.2 h.wf.nodup

/-- inserting behind visible position `i` -/
theorem SI.vis_after {M : Impl X T} (L : Lawful M) {o : Op T} {s : Seq X T} (h : SI s) {n i p}
    (hn : newNode M o s = some n) (hp : n.parent = some p) (hi : s.visibleIdAt M i = some p) :
    (apply M o s).visible M = (s.visible M).take (i + 1) ++ n :: (s.visible M).drop (i + 1) := by
  rw [apply_new hn]
  simp only [visible]
  rw [L.sorted_newest (h.newest L hn), doc, hp]
  exact vis_ins (newNode_spec L h.wf hn).2.1 _ i (h.sorted_nodup L) hi

theorem SI.vis_head {M : Impl X T} (L : Lawful M) {o : Op T} {s : Seq X T} (h : SI s) {n}
    (hn : newNode M o s = some n) (hp : n.parent = none) :
    (apply M o s).visible M = n :: s.visible M := by
  rw [apply_new hn]
  simp only [visible]
  rw [L.sorted_newest (h.newest L hn), doc, hp]
  simp [(newNode_spec L h.wf hn).2.1]

theorem SI.vis_target {M : Impl X T} (L : Lawful M) {s : Seq X T} (h : SI s) {i p}
    (hp : s.visibleIdAt M i = some p) :
    (remove M i s).visible M = (s.visible M).eraseIdx i := by
  simp only [remove, hp, visible]
  rw [markFirst_eq h.wf.nodup, L.sorted_map (flag_id p) (flag_parent p) h.wf]
  exact vis_flag _ i (h.sorted_nodup L) hp

/-! ## Merge -/

/-- `n` is `m` up to its tombstone -/
def SameElt (n m : SeqNode X T) : Prop := n = { m with deleted := n.deleted }

theorem SameElt.id_eq {n m : SeqNode X T} (h : SameElt n m) : n.id = m.id := by rw [h]
theorem SameElt.parent_eq {n m : SeqNode X T} (h : SameElt n m) : n.parent = m.parent := by rw [h]
theorem SameElt.refl (n : SeqNode X T) : SameElt n n := rfl
theorem SameElt.trans {a b c : SeqNode X T} (h : SameElt a b) (h' : SameElt b c) : SameElt a c := by
  obtain ⟨i, v, d, p, x⟩ := a; obtain ⟨i', v', d', p', x'⟩ := b; obtain ⟨i'', v'', d'', p'', x''⟩ := c
  simp only [SameElt, SeqNode.mk.injEq] at *
  simp_all
theorem SameElt.symm {a b : SeqNode X T} (h : SameElt a b) : SameElt b a := by
  obtain ⟨i, v, d, p, x⟩ := a; obtain ⟨i', v', d', p', x'⟩ := b
  simp only [SameElt, SeqNode.mk.injEq] at *
  obtain ⟨h1, h2, _, h4, h5⟩ := h
  simp_all
theorem SameElt.flag (p : SeqId) (n : SeqNode X T) : SameElt (flag p n) n := by
  simp only [SameElt, Seq.flag]; split <;> rfl
theorem SameElt.ext {a b : SeqNode X T} (h : SameElt a b) (hd : a.deleted = b.deleted) : a = b := by
  rw [h, hd]

structure Merged (A B R : List (SeqNode X T)) : Prop where
  nodup : (R.map SeqNode.id).Nodup
  src : ∀ n ∈ R, ∃ m, (m ∈ A ∨ m ∈ B) ∧ SameElt n m
  ids : ∀ m, m ∈ A ∨ m ∈ B → ∃ n ∈ R, n.id = m.id
  del : ∀ n ∈ R, n.deleted = true ↔ ∃ m, (m ∈ A ∨ m ∈ B) ∧ m.id = n.id ∧ m.deleted = true

theorem mergeNode_spec {A : List (SeqNode X T)} (hA : (A.map SeqNode.id).Nodup) (o : SeqNode X T) :
    Merged A [o] (mergeNode A o) := by
  rw [mergeNode]
  split
  · next h =>
    rw [List.any_eq_true] at h
    obtain ⟨a, ha, e⟩ := h
    have e : a.id = o.id := by simpa using e
    split
    · next hd =>
      rw [markFirst_eq hA]
      refine ⟨?_, ?_, ?_, ?_⟩
      · rw [List.map_map]
        have : (SeqNode.id ∘ flag o.id) = (SeqNode.id : SeqNode X T → SeqId) := by
          funext n; exact flag_id _ n
        rw [this]; exact hA
      · intro n hn
        obtain ⟨m, hm, rfl⟩ := List.mem_map.1 hn
        exact ⟨m, Or.inl hm, SameElt.flag _ _⟩
      · rintro m (hm | hm)
        · exact ⟨_, List.mem_map.2 ⟨m, hm, rfl⟩, flag_id _ _⟩
        · rw [List.mem_singleton] at hm; subst hm
          exact ⟨_, List.mem_map.2 ⟨a, ha, rfl⟩, by rw [flag_id]; exact e⟩
      · intro n hn
        obtain ⟨m, hm, rfl⟩ := List.mem_map.1 hn
        rw [flag_id]
        constructor
        · intro h
          by_cases hmo : m.id = o.id
          · exact ⟨o, Or.inr (by simp), hmo.symm, hd⟩
          · rw [flag, if_neg hmo] at h; exact ⟨m, Or.inl hm, rfl, h⟩
        · rintro ⟨k, hk | hk, hkm, hkd⟩
          · have := List.inj_on_of_nodup_map hA hk hm hkm; subst this
            rw [flag]; split
            · rfl
            · exact hkd
          · rw [List.mem_singleton] at hk; subst hk
            rw [flag, if_pos hkm.symm]
    · next hd =>
      refine ⟨hA, fun n hn => ⟨n, Or.inl hn, SameElt.refl n⟩, ?_, ?_⟩
      · rintro m (hm | hm)
        · exact ⟨m, hm, rfl⟩
        · rw [List.mem_singleton] at hm; subst hm; exact ⟨a, ha, e⟩
      · intro n hn
        constructor
        · intro h; exact ⟨n, Or.inl hn, rfl, h⟩
        · rintro ⟨k, hk | hk, hkm, hkd⟩
          · have := List.inj_on_of_nodup_map hA hk hn hkm; subst this; exact hkd
          · rw [List.mem_singleton] at hk; subst hk; exact absurd hkd hd
  · next h =>
    have hno : ∀ a ∈ A, a.id ≠ o.id := by
      intro a ha e; exact h (List.any_eq_true.2 ⟨a, ha, by simpa using e⟩)
    refine ⟨?_, ?_, ?_, ?_⟩
    · rw [List.map_append, List.nodup_append]
      refine ⟨hA, by simp, ?_⟩
      intro x hx y hy e
      obtain ⟨a, ha, rfl⟩ := List.mem_map.1 hx
      simp only [List.map_cons, List.map_nil, List.mem_singleton] at hy
      exact hno a ha (e.trans hy)
    · intro n hn; exact ⟨n, by simpa using hn, SameElt.refl n⟩
    · intro m hm; exact ⟨m, by simpa using hm, rfl⟩
    · intro n hn
      have nd : ((A ++ [o]).map SeqNode.id).Nodup := by
        rw [List.map_append, List.nodup_append]
        refine ⟨hA, by simp, ?_⟩
        intro x hx y hy e
        obtain ⟨a, ha, rfl⟩ := List.mem_map.1 hx
        simp only [List.map_cons, List.map_nil, List.mem_singleton] at hy
        exact hno a ha (e.trans hy)
      constructor
      · intro h; exact ⟨n, by simpa using hn, rfl, h⟩
      · rintro ⟨k, hk, hkm, hkd⟩
        have hk' : k ∈ A ++ [o] := by simpa using hk
        have := List.inj_on_of_nodup_map nd hk' hn hkm; subst this; exact hkd

theorem merge_spec {A B : List (SeqNode X T)} (hA : (A.map SeqNode.id).Nodup) :
    Merged A B (B.foldl mergeNode A) := by
  induction B generalizing A with
  | nil =>
    refine ⟨hA, fun n hn => ⟨n, Or.inl hn, SameElt.refl n⟩, ?_, ?_⟩
    · rintro m (hm | hm)
      · exact ⟨m, hm, rfl⟩
      · cases hm
    · intro n hn
      constructor
      · intro h; exact ⟨n, Or.inl hn, rfl, h⟩
      · rintro ⟨k, hk | hk, hkm, hkd⟩
        · have := List.inj_on_of_nodup_map hA hk hn hkm; subst this; exact hkd
        · cases hk
  | cons o t ih =>
    rw [List.foldl_cons]
    have h1 := mergeNode_spec hA o
    have h2 := ih h1.nodup
    refine ⟨h2.nodup, ?_, ?_, ?_⟩
    · intro n hn
      obtain ⟨m, hm, e⟩ := h2.src n hn
      rcases hm with hm | hm
      · obtain ⟨k, hk, e'⟩ := h1.src m hm
        exact ⟨k, by simpa using (by tauto : k ∈ A ∨ k ∈ [o] ∨ k ∈ t), e.trans e'⟩
      · exact ⟨m, Or.inr (List.mem_cons_of_mem _ hm), e⟩
    · intro m hm
      have hm' : (m ∈ A ∨ m ∈ [o]) ∨ m ∈ t := by simpa [or_assoc] using hm
      rcases hm' with hm | hm
      · obtain ⟨k, hk, e⟩ := h1.ids m hm
        obtain ⟨n, hn, e'⟩ := h2.ids k (Or.inl hk)
        exact ⟨n, hn, e'.trans e⟩
      · exact h2.ids m (Or.inr hm)
    · intro n hn
      rw [h2.del n hn]
      constructor
      · rintro ⟨m, hm | hm, e, hd⟩
        · obtain ⟨k, hk, ek, hkd⟩ := (h1.del m hm).1 hd
          exact ⟨k, by simpa using (by tauto : k ∈ A ∨ k ∈ [o] ∨ k ∈ t), ek.trans e, hkd⟩
        · exact ⟨m, Or.inr (List.mem_cons_of_mem _ hm), e, hd⟩
      · rintro ⟨m, hm, e, hd⟩
        have hm' : (m ∈ A ∨ m ∈ [o]) ∨ m ∈ t := by simpa [or_assoc] using hm
        rcases hm' with hm | hm
        · obtain ⟨k, hk, ek⟩ := h1.ids m hm
          exact ⟨k, Or.inl hk, ek.trans e, (h1.del k hk).2 ⟨m, hm, ek.symm, hd⟩⟩
        · exact ⟨m, Or.inr hm, e, hd⟩

/-! ## The world invariant -/

section
variable (M : Impl X T)

/-- event `e` created `n` -/
def Creates (iss : Iss (Seq X T) (Op T)) (e : Ev) (n : SeqNode X T) : Prop :=
  ∃ i, iss e = some i ∧ newNode M i.op i.pre = some n

/-- event `f` removed the element with id `p` -/
def Removes (iss : Iss (Seq X T) (Op T)) (f : Ev) (p : SeqId) : Prop :=
  ∃ i, iss f = some i ∧ target M i.op i.pre = some p

structure seqInv (iss : Iss (Seq X T) (Op T)) (c : Copy (Seq X T)) : Prop where
  si : SI c.state
  src : ∀ n ∈ c.state.nodes, ∃ e ∈ c.seen, ∃ m, Creates M iss e m ∧ SameElt n m
  ids : ∀ e ∈ c.seen, ∀ m, Creates M iss e m → ∃ n ∈ c.state.nodes, n.id = m.id
  del : ∀ n ∈ c.state.nodes, n.deleted = true ↔ ∃ f ∈ c.seen, Removes M iss f n.id

variable {M}

theorem creates_add {iss : Iss (Seq X T) (Op T)} {e i} (he : iss e = none) {x n} (hx : x ≠ e) :
    Creates M (iss.add e i) x n ↔ Creates M iss x n := by
  simp only [Creates, Iss.add_ne _ _ hx]

theorem removes_add {iss : Iss (Seq X T) (Op T)} {e i} (he : iss e = none) {x p} (hx : x ≠ e) :
    Removes M (iss.add e i) x p ↔ Removes M iss x p := by
  simp only [Removes, Iss.add_ne _ _ hx]

/-- removals received target elements received -/
theorem seqInv.target_known (L : Lawful M) {iss : Iss (Seq X T) (Op T)} {J} {c : Copy (Seq X T)}
    (hist : ∀ e i, iss e = some i → Hist (seqInv M) J iss e i) (g : Good iss c) (h : seqInv M iss c)
    {f p} (hf : f ∈ c.seen) (hr : Removes M iss f p) : ∃ n ∈ c.state.nodes, n.id = p := by
  obtain ⟨i, hi, ht⟩ := hr
  have hI := (hist f i hi).inv
  obtain ⟨m, hm, rfl⟩ := target_mem L hI.si.wf ht
  obtain ⟨e, he, m', hc, hs⟩ := hI.src m hm
  obtain ⟨i', hi', hsub⟩ := g.issued f hf
  rw [hi] at hi'; injection hi' with hi'; subst hi'
  obtain ⟨n, hn, e⟩ := h.ids e (hsub he) m' hc
  exact ⟨n, hn, e.trans hs.id_eq.symm⟩

theorem seqInv.merge (L : Lawful M) {iss : Iss (Seq X T) (Op T)} {J} {c d : Copy (Seq X T)}
    (hist : ∀ e i, iss e = some i → Hist (seqInv M) J iss e i) (gc : Good iss c) (gd : Good iss d)
    (hc : seqInv M iss c) (hd : seqInv M iss d) :
    seqInv M iss ⟨Seq.merge c.state d.state, c.seen ∪ d.seen⟩ := by
  have hm := merge_spec (B := d.state.nodes) hc.si.wf.nodup
  show seqInv M iss ⟨⟨d.state.nodes.foldl mergeNode c.state.nodes,
    max c.state.timestamp d.state.timestamp, c.state.replicaId⟩, c.seen ∪ d.seen⟩
  generalize d.state.nodes.foldl mergeNode c.state.nodes = R at hm
  refine ⟨⟨⟨hm.nodup, ?_⟩, ?_⟩, ?_, ?_, ?_⟩
  · intro n hn p hp
    obtain ⟨m, hmem, hs⟩ := hm.src n hn
    rw [hs.parent_eq] at hp
    rw [hs.id_eq]
    rcases hmem with hmem | hmem
    · obtain ⟨⟨k, hk, e⟩, hl⟩ := hc.si.wf.parent m hmem p hp
      obtain ⟨k', hk', e'⟩ := hm.ids k (Or.inl hk)
      exact ⟨⟨k', hk', e'.trans e⟩, hl⟩
    · obtain ⟨⟨k, hk, e⟩, hl⟩ := hd.si.wf.parent m hmem p hp
      obtain ⟨k', hk', e'⟩ := hm.ids k (Or.inr hk)
      exact ⟨⟨k', hk', e'.trans e⟩, hl⟩
  · intro n hn
    obtain ⟨m, hmem, hs⟩ := hm.src n hn
    rw [hs.id_eq]
    rcases hmem with hmem | hmem
    · have := hc.si.clock m hmem; simp only; omega
    · have := hd.si.clock m hmem; simp only; omega
  · intro n hn
    obtain ⟨m, hmem, hs⟩ := hm.src n hn
    rcases hmem with hmem | hmem
    · obtain ⟨e, he, k, hk, hs'⟩ := hc.src m hmem
      exact ⟨e, Or.inl he, k, hk, hs.trans hs'⟩
    · obtain ⟨e, he, k, hk, hs'⟩ := hd.src m hmem
      exact ⟨e, Or.inr he, k, hk, hs.trans hs'⟩
  · rintro e (he | he) m hcr
    · obtain ⟨k, hk, ek⟩ := hc.ids e he m hcr
      obtain ⟨k', hk', e'⟩ := hm.ids k (Or.inl hk)
      exact ⟨k', hk', e'.trans ek⟩
    · obtain ⟨k, hk, ek⟩ := hd.ids e he m hcr
      obtain ⟨k', hk', e'⟩ := hm.ids k (Or.inr hk)
      exact ⟨k', hk', e'.trans ek⟩
  · intro n hn
    rw [hm.del n hn]
    constructor
    · rintro ⟨m, hmem | hmem, e, hdel⟩
      · obtain ⟨f, hf, hr⟩ := (hc.del m hmem).1 hdel
        exact ⟨f, Or.inl hf, by rw [← e]; exact hr⟩
      · obtain ⟨f, hf, hr⟩ := (hd.del m hmem).1 hdel
        exact ⟨f, Or.inr hf, by rw [← e]; exact hr⟩
    · rintro ⟨f, hf | hf, hr⟩
      · obtain ⟨k, hk, e⟩ := hc.target_known L hist gc hf hr
        exact ⟨k, Or.inl hk, e, (hc.del k hk).2 ⟨f, hf, by rw [e]; exact hr⟩⟩
      · obtain ⟨k, hk, e⟩ := hd.target_known L hist gd hf hr
        exact ⟨k, Or.inr hk, e, (hd.del k hk).2 ⟨f, hf, by rw [e]; exact hr⟩⟩

theorem creates_inj (L : Lawful M) {iss : Iss (Seq X T) (Op T)}
    (hist : ∀ e i, iss e = some i → Hist (seqInv M) (fun r s => s.replicaId = r) iss e i) {e f n m}
    (he : Creates M iss e n) (hf : Creates M iss f m) (hid : n.id = m.id) : e = f := by
  obtain ⟨i, hi, hn⟩ := he
  obtain ⟨j, hj, hm⟩ := hf
  have hI := hist e i hi
  have hJ := hist f j hj
  have en := (newNode_spec L hI.inv.si.wf hn).1
  have em := (newNode_spec L hJ.inv.si.wf hm).1
  have ids := hid
  rw [en, em, SeqId.mk.injEq, hI.rid, hJ.rid] at hid
  obtain ⟨er, ei⟩ := e
  obtain ⟨fr, fi⟩ := f
  simp only at hid
  obtain ⟨h1, rfl⟩ := hid
  rcases Nat.lt_trichotomy ei fi with h | h | h
  · obtain ⟨k, hk, ek⟩ := hJ.inv.ids _ ((hJ.own ei).2 h) n ⟨i, hi, hn⟩
    have := hJ.inv.si.clock k hk
    rw [ek, en] at this; simp only at this; omega
  · rw [h]
  · obtain ⟨k, hk, ek⟩ := hI.inv.ids _ ((hI.own fi).2 h) m ⟨j, hj, hm⟩
    have := hI.inv.si.clock k hk
    rw [ek, em] at this; simp only at this; omega

theorem seq_inv (L : Lawful M) {w} (h : Reachable (rdt M) w) :
    WInv (rdt M) (seqInv M) (fun r s => s.replicaId = r) w := by
  apply reach_inv _ _ _ _ _ _ _ h
  · intro r
    refine ⟨⟨⟨by simp [rdt, new], ?_⟩, ?_⟩, ?_, ?_, ?_⟩
    · intro n hn; simp [rdt, new] at hn
    · intro n hn; simp [rdt, new] at hn
    · intro n hn; simp [rdt, new] at hn
    · intro e he; exact absurd he (Set.notMem_empty _)
    · intro n hn; simp [rdt, new] at hn
  · intro r; rfl
  · intro iss e i c hist g he hI
    have hne : ∀ x ∈ c.seen, x ≠ e := by rintro x hx rfl; exact g.not_mem he hx
    refine ⟨hI.si, ?_, ?_, ?_⟩
    · intro n hn
      obtain ⟨x, hx, m, hc, hs⟩ := hI.src n hn
      exact ⟨x, hx, m, (creates_add he (hne x hx)).2 hc, hs⟩
    · intro x hx m hc
      exact hI.ids x hx m ((creates_add he (hne x hx)).1 hc)
    · intro n hn
      rw [hI.del n hn]
      constructor
      · rintro ⟨f, hf, hr⟩; exact ⟨f, hf, (removes_add he (hne f hf)).2 hr⟩
      · rintro ⟨f, hf, hr⟩; exact ⟨f, hf, (removes_add he (hne f hf)).1 hr⟩
  · intro iss c r o n hist g own hnone hI0 hI hJ
    have he : iss ⟨r, n⟩ = none := hnone n (Nat.le_refl _)
    have hen : (⟨r, n⟩ : Ev) ∉ c.seen := g.not_mem he
    have hnew : (iss.add ⟨r, n⟩ ⟨o, c.state, c.seen⟩) ⟨r, n⟩ = some ⟨o, c.state, c.seen⟩ := by simp
    have hcr : ∀ m, Creates M (iss.add ⟨r, n⟩ ⟨o, c.state, c.seen⟩) ⟨r, n⟩ m ↔ newNode M o c.state = some m := by
      intro m; simp only [Creates, hnew]; simp
    have hrm : ∀ p, Removes M (iss.add ⟨r, n⟩ ⟨o, c.state, c.seen⟩) ⟨r, n⟩ p ↔ target M o c.state = some p := by
      intro p; simp only [Removes, hnew]; simp
    have hknown : ∀ f ∈ c.seen, ∀ p, Removes M (iss.add ⟨r, n⟩ ⟨o, c.state, c.seen⟩) f p →
        ∃ k ∈ c.state.nodes, k.id = p := by
      intro f hf p hr
      have hfe : f ≠ ⟨r, n⟩ := by rintro rfl; exact hen hf
      exact hI0.target_known L hist g hf ((removes_add he hfe).1 hr)
    generalize (iss.add ⟨r, n⟩ ⟨o, c.state, c.seen⟩) = iss' at *
    show seqInv M iss' ⟨apply M o c.state, _⟩ ∧ (apply M o c.state).replicaId = r
    cases hn : newNode M o c.state with
    | some nn =>
      have hN := hI.si.newest L hn
      have hspec := newNode_spec L hI.si.wf hn
      rw [apply_new hn]
      have ht := newNode_target hn
      refine ⟨⟨⟨hN.wf, ?_⟩, ?_, ?_, ?_⟩, hJ⟩
      · intro m hm
        rcases List.mem_append.1 hm with hm | hm
        · have := hI.si.clock m hm; simp only; omega
        · rw [List.mem_singleton] at hm; subst hm; rw [hspec.1]
      · intro m hm
        rcases List.mem_append.1 hm with hm | hm
        · obtain ⟨x, hx, k, hc, hs⟩ := hI.src m hm
          exact ⟨x, Set.mem_insert_of_mem _ hx, k, hc, hs⟩
        · rw [List.mem_singleton] at hm; subst hm
          exact ⟨_, Set.mem_insert _ _, m, (hcr m).2 hn, SameElt.refl m⟩
      · intro x hx m hc
        rcases Set.mem_insert_iff.1 hx with rfl | hx
        · rw [hcr, hn] at hc; injection hc with hc; subst hc
          exact ⟨nn, by simp, rfl⟩
        · obtain ⟨k, hk, e⟩ := hI.ids x hx m hc
          exact ⟨k, List.mem_append_left _ hk, e⟩
      · intro m hm
        rcases List.mem_append.1 hm with hm | hm
        · rw [hI.del m hm]
          constructor
          · rintro ⟨f, hf, hr⟩; exact ⟨f, Set.mem_insert_of_mem _ hf, hr⟩
          · rintro ⟨f, hf, hr⟩
            rcases Set.mem_insert_iff.1 hf with rfl | hf
            · rw [hrm, ht] at hr; cases hr
            · exact ⟨f, hf, hr⟩
        · rw [List.mem_singleton] at hm; subst hm
          rw [hspec.2.1]
          constructor
          · intro h; cases h
          · rintro ⟨f, hf, hr⟩
            rcases Set.mem_insert_iff.1 hf with rfl | hf
            · rw [hrm, ht] at hr; cases hr
            · obtain ⟨k, hk, e⟩ := hknown f hf _ hr
              exact absurd e (hN.notMem hk)
    | none =>
      cases ht : target M o c.state with
      | none =>
        rw [apply_none hn ht]
        refine ⟨⟨hI.si, ?_, ?_, ?_⟩, hJ⟩
        · intro m hm
          obtain ⟨x, hx, k, hc, hs⟩ := hI.src m hm
          exact ⟨x, Set.mem_insert_of_mem _ hx, k, hc, hs⟩
        · intro x hx m hc
          rcases Set.mem_insert_iff.1 hx with rfl | hx
          · rw [hcr, hn] at hc; cases hc
          · exact hI.ids x hx m hc
        · intro m hm
          rw [hI.del m hm]
          constructor
          · rintro ⟨f, hf, hr⟩; exact ⟨f, Set.mem_insert_of_mem _ hf, hr⟩
          · rintro ⟨f, hf, hr⟩
            rcases Set.mem_insert_iff.1 hf with rfl | hf
            · rw [hrm, ht] at hr; cases hr
            · exact ⟨f, hf, hr⟩
      | some p =>
        rw [apply_target ht, markFirst_eq hI.si.wf.nodup]
        refine ⟨⟨⟨hI.si.wf.map (flag_id p) (flag_parent p), ?_⟩, ?_, ?_, ?_⟩, hJ⟩
        · intro m hm
          obtain ⟨k, hk, rfl⟩ := List.mem_map.1 hm
          rw [flag_id]; exact hI.si.clock k hk
        · intro m hm
          obtain ⟨k, hk, rfl⟩ := List.mem_map.1 hm
          obtain ⟨x, hx, k', hc, hs⟩ := hI.src k hk
          exact ⟨x, Set.mem_insert_of_mem _ hx, k', hc, (SameElt.flag p k).trans hs⟩
        · intro x hx m hc
          rcases Set.mem_insert_iff.1 hx with rfl | hx
          · rw [hcr, hn] at hc; cases hc
          · obtain ⟨k, hk, e⟩ := hI.ids x hx m hc
            exact ⟨_, List.mem_map.2 ⟨k, hk, rfl⟩, by rw [flag_id]; exact e⟩
        · intro m hm
          obtain ⟨k, hk, rfl⟩ := List.mem_map.1 hm
          rw [flag_id]
          have hdk := hI.del k hk
          constructor
          · intro hd
            by_cases hkp : k.id = p
            · exact ⟨_, Set.mem_insert _ _, by rw [hrm, ht, hkp]⟩
            · rw [flag, if_neg hkp] at hd
              obtain ⟨f, hf, hr⟩ := hdk.1 hd
              exact ⟨f, Set.mem_insert_of_mem _ hf, hr⟩
          · rintro ⟨f, hf, hr⟩
            rcases Set.mem_insert_iff.1 hf with rfl | hf
            · rw [hrm, ht] at hr; injection hr with hr
              rw [flag, if_pos hr.symm]
            · have := hdk.2 ⟨f, hf, hr⟩
              rw [flag]; split
              · rfl
              · exact this
  · intro iss c d r hist gc gd hc hd hJ
    exact ⟨hc.merge L hist gc gd hd, hJ⟩

/-! ## Consequences used by the property files -/

theorem seqInv.same_of_id (L : Lawful M) {iss : Iss (Seq X T) (Op T)}
    (hist : ∀ e i, iss e = some i → Hist (seqInv M) (fun r s => s.replicaId = r) iss e i)
    {c d : Copy (Seq X T)} (hc : seqInv M iss c) (hd : seqInv M iss d) {n m}
    (hn : n ∈ c.state.nodes) (hm : m ∈ d.state.nodes) (e : n.id = m.id) : SameElt n m := by
  obtain ⟨x, _, k, hk, hs⟩ := hc.src n hn
  obtain ⟨y, _, k', hk', hs'⟩ := hd.src m hm
  have := creates_inj L hist hk hk' (by rw [← hs.id_eq, ← hs'.id_eq, e])
  subst this
  obtain ⟨i, hi, h1⟩ := hk
  obtain ⟨i', hi', h2⟩ := hk'
  rw [hi] at hi'; injection hi' with hi'; subst hi'
  rw [h1] at h2; injection h2 with h2; subst h2
  exact hs.trans hs'.symm

theorem seqInv.agree (L : Lawful M) {iss : Iss (Seq X T) (Op T)}
    (hist : ∀ e i, iss e = some i → Hist (seqInv M) (fun r s => s.replicaId = r) iss e i)
    {c d : Copy (Seq X T)} (hc : seqInv M iss c) (hd : seqInv M iss d) (same : c.seen = d.seen) :
    c.state.visible M = d.state.visible M := by
  have key : ∀ (c d : Copy (Seq X T)), seqInv M iss c → seqInv M iss d → c.seen = d.seen →
      ∀ n ∈ c.state.nodes, n ∈ d.state.nodes := by
    intro c d hc hd same n hn
    obtain ⟨x, hx, k, hk, hs⟩ := hc.src n hn
    obtain ⟨m, hm, e⟩ := hd.ids x (same ▸ hx) k hk
    have e' : n.id = m.id := by rw [hs.id_eq, e]
    have hnm := hc.same_of_id L hist hd hn hm e'
    have : n.deleted = m.deleted := by
      rw [Bool.eq_iff_iff, hc.del n hn, hd.del m hm, same, e']
    rw [hnm.ext this]; exact hm
  have hp : c.state.nodes.Perm d.state.nodes := by
    rw [List.perm_ext_iff_of_nodup (List.Nodup.of_map _ hc.si.wf.nodup) (List.Nodup.of_map _ hd.si.wf.nodup)]
    exact fun n => ⟨key c d hc hd same n, key d c hd hc same.symm n⟩
  simp only [visible, L.sorted_congr hc.si.wf hp]

theorem seqInv.ids_sublist (L : Lawful M) {iss : Iss (Seq X T) (Op T)}
    (hist : ∀ e i, iss e = some i → Hist (seqInv M) (fun r s => s.replicaId = r) iss e i)
    {c d : Copy (Seq X T)} (hc : seqInv M iss c) (hd : seqInv M iss d) (sub : c.seen ⊆ d.seen) :
    List.Sublist ((M.sorted c.state.nodes).map SeqNode.id) ((M.sorted d.state.nodes).map SeqNode.id) := by
  apply L.sorted_ids_sublist hc.si.wf hd.si.wf
  intro n hn
  obtain ⟨x, hx, k, hk, hs⟩ := hc.src n hn
  obtain ⟨m, hm, e⟩ := hd.ids x (sub hx) k hk
  have e' : n.id = m.id := by rw [hs.id_eq, e]
  exact ⟨m, hm, e'.symm, (hc.same_of_id L hist hd hn hm e').parent_eq.symm⟩

theorem filter_common {A : Type} [DecidableEq A] {N a b : List A} (hN : N.Nodup) (ha : List.Sublist a N)
    (hb : List.Sublist b N) : a.filter (fun x => decide (x ∈ b)) = b.filter (fun x => decide (x ∈ a)) := by
  have key : ∀ {N a : List A}, N.Nodup → List.Sublist a N → a = N.filter (fun x => decide (x ∈ a)) := by
    intro N a hN h
    induction h with
    | slnil => rfl
    | @cons l l' y h ih =>
      rw [List.nodup_cons] at hN
      have : y ∉ l := fun hy => hN.1 (h.subset hy)
      rw [List.filter_cons, if_neg (by simpa using this)]; exact ih hN.2
    | @cons_cons l l' y h ih =>
      rw [List.nodup_cons] at hN
      rw [List.filter_cons, if_pos (by simp)]
      congr 1
      refine (ih hN.2).trans (List.filter_congr ?_)
      intro x hx
      have : x ≠ y := by rintro rfl; exact hN.1 hx
      simp [List.mem_cons, this]
  have e1 := key hN ha
  have e2 := key hN hb
  calc a.filter (fun x => decide (x ∈ b))
      = (N.filter (fun x => decide (x ∈ a))).filter (fun x => decide (x ∈ b)) := by rw [← e1]
    _ = (N.filter (fun x => decide (x ∈ b))).filter (fun x => decide (x ∈ a)) := by
        rw [List.filter_filter, List.filter_filter]
        apply List.filter_congr; intro x _; rw [Bool.and_comm]
    _ = b.filter (fun x => decide (x ∈ a)) := by rw [← e2]

/-- two views list their common elements in the same order -/
theorem seqInv.common_order (L : Lawful M) {iss : Iss (Seq X T) (Op T)}
    (hist : ∀ e i, iss e = some i → Hist (seqInv M) (fun r s => s.replicaId = r) iss e i)
    {c d : Copy (Seq X T)} (gc : Good iss c) (gd : Good iss d) (hc : seqInv M iss c) (hd : seqInv M iss d) :
    let lc := (c.state.visible M).map SeqNode.id
    let ld := (d.state.visible M).map SeqNode.id
    lc.filter (fun x => decide (x ∈ ld)) = ld.filter (fun x => decide (x ∈ lc)) := by
  have hm := hc.merge L hist gc gd hd
  have s1 := hc.ids_sublist L hist hm Set.subset_union_left
  have s2 := hd.ids_sublist L hist hm Set.subset_union_right
  refine filter_common (hm.si.sorted_nodup L) (List.Sublist.trans ?_ s1) (List.Sublist.trans ?_ s2)
  · exact List.filter_sublist.map _
  · exact List.filter_sublist.map _

end
end Verif.Crdt.Seq
