import Verif.Crdt.SeqWorld
/-! # Replicated sequences: what a user sees, as a function of the operations received (helpers) -/
namespace Verif.Crdt.Seq
variable {X T : Type} {M : Impl X T}

/-- the value an operation inserts -/
def Op.inserts : Op T → Option T
  | .append v => some v
  | .insertAfter _ v => some v
  | .insertBefore _ v => some v
  | .remove _ => none

theorem newNode_isSome (o : Op T) (s : Seq X T) : (newNode M o s).map SeqNode.value = o.inserts := by
  cases o with
  | insertBefore i v => cases i <;> rfl
  | _ => rfl

/-- A copy held by a replica, travelling in the network, or on which some operation was issued. -/
def Known (w : World (Seq X T) (Op T)) (c : Copy (Seq X T)) : Prop :=
  w.Live c ∨ ∃ e i, w.issue? e = some i ∧ c = ⟨i.pre, i.past⟩

theorem Known.inv (L : Lawful M) {w} (h : Reachable (rdt M) w) {c} (hc : Known w c) :
    Good w.issue? c ∧ seqInv M w.issue? c := by
  rcases hc with hc | ⟨e, i, hi, rfl⟩
  · exact (seq_inv L h).live c hc
  · exact ⟨((seq_inv L h).hist e i hi).good, ((seq_inv L h).hist e i hi).inv⟩

open Classical in
/-- the event that created an id -/
noncomputable def evOf (M : Impl X T) (w : World (Seq X T) (Op T)) (p : SeqId) : Ev :=
  if h : ∃ e n, Creates M w.issue? e n ∧ n.id = p then h.choose else ⟨0, 0⟩

theorem evOf_eq (L : Lawful M) {w} (h : Reachable (rdt M) w) {e n} (hc : Creates M w.issue? e n) :
    evOf M w n.id = e := by
  have hex : ∃ e m, Creates M w.issue? e m ∧ m.id = n.id := ⟨e, n, hc, rfl⟩
  rw [evOf, dif_pos hex]
  obtain ⟨m, hm, hid⟩ := hex.choose_spec
  exact creates_inj L (seq_inv L h).hist hm hc hid

/-- the events behind the visible elements of a copy -/
noncomputable def viewOf (M : Impl X T) (w : World (Seq X T) (Op T)) (c : Copy (Seq X T)) : List Ev :=
  (c.state.visible M).map (fun n => evOf M w n.id)

open Classical in
/-- the same, as a function of the set of operations received -/
noncomputable def view (M : Impl X T) (w : World (Seq X T) (Op T)) (S : Set Ev) : List Ev :=
  if h : ∃ c, Known w c ∧ c.seen = S then viewOf M w h.choose else []

theorem view_eq (L : Lawful M) {w} (h : Reachable (rdt M) w) {c} (hc : Known w c) :
    view M w c.seen = viewOf M w c := by
  have hex : ∃ d, Known w d ∧ d.seen = c.seen := ⟨c, hc, rfl⟩
  rw [view, dif_pos hex]
  obtain ⟨h1, h2⟩ := hex.choose_spec
  rw [viewOf, viewOf, (h1.inv L h).2.agree L (seq_inv L h).hist (hc.inv L h).2 h2]

theorem mem_visible (L : Lawful M) {s : Seq X T} (h : WF s.nodes) {n} :
    n ∈ s.visible M ↔ n ∈ s.nodes ∧ n.deleted = false := by
  rw [visible, List.mem_filter, (L.sorted_perm h).mem_iff]; simp

theorem evOf_inj (L : Lawful M) {w} (h : Reachable (rdt M) w) {c} (hc : Known w c) {n m}
    (hn : n ∈ c.state.nodes) (hm : ∃ d, Known w d ∧ m ∈ d.state.nodes) (e : evOf M w n.id = evOf M w m.id) :
    n.id = m.id := by
  obtain ⟨d, hd, hm⟩ := hm
  obtain ⟨x, _, k, hk, hs⟩ := (hc.inv L h).2.src n hn
  obtain ⟨y, _, k', hk', hs'⟩ := (hd.inv L h).2.src m hm
  rw [hs.id_eq, hs'.id_eq, evOf_eq L h hk, evOf_eq L h hk'] at e
  subst e
  obtain ⟨i, hi, h1⟩ := hk
  obtain ⟨i', hi', h2⟩ := hk'
  rw [hi] at hi'; injection hi' with hi'; subst hi'
  rw [h1] at h2; injection h2 with h2; subst h2
  rw [hs.id_eq, hs'.id_eq]

theorem viewOf_nodup (L : Lawful M) {w} (h : Reachable (rdt M) w) {c} (hc : Known w c) :
    (viewOf M w c).Nodup := by
  have hI := (hc.inv L h).2
  have nd : ((c.state.visible M).map SeqNode.id).Nodup :=
    (List.filter_sublist.map SeqNode.id).nodup (hI.si.sorted_nodup L)
  apply List.Nodup.map_on _ (List.Nodup.of_map _ nd)
  intro a ha b hb e
  have ha' := ((mem_visible L hI.si.wf).1 ha).1
  have hb' := ((mem_visible L hI.si.wf).1 hb).1
  exact hI.si.wf.inj ha' hb' (evOf_inj L h hc ha' ⟨c, hc, hb'⟩ e)

theorem viewOf_values (L : Lawful M) {w} (h : Reachable (rdt M) w) {c} (hc : Known w c) :
    (c.state.toVec M).map some = (viewOf M w c).map (fun e => (w.issue? e).bind (fun i => i.op.inserts)) := by
  have hI := (hc.inv L h).2
  rw [toVec, viewOf, List.map_map, List.map_map]
  apply List.map_congr_left
  intro n hn
  obtain ⟨x, _, k, hk, hs⟩ := hI.src n ((mem_visible L hI.si.wf).1 hn).1
  simp only [Function.comp_apply]
  rw [hs.id_eq, evOf_eq L h hk]
  obtain ⟨i, hi, h1⟩ := hk
  rw [hi, Option.bind_some, ← newNode_isSome (M := M) i.op i.pre, h1, hs]; rfl

theorem viewOf_mem (L : Lawful M) {w} (h : Reachable (rdt M) w) {c} (hc : Known w c) (e : Ev) :
    e ∈ viewOf M w c ↔ e ∈ c.seen ∧ (∃ i v, w.issue? e = some i ∧ i.op.inserts = some v) ∧
      ¬ ∃ f ∈ c.seen, ∃ i k, w.issue? f = some i ∧ i.op = .remove k ∧
          (viewOf M w ⟨i.pre, i.past⟩)[k]? = some e := by
  have hI := (hc.inv L h).2
  have hist := (seq_inv L h).hist
  -- removals in terms of events
  have rem_iff : ∀ f n x, Creates M w.issue? x n → (Removes M w.issue? f n.id ↔ ∃ i k, w.issue? f = some i ∧
      i.op = .remove k ∧ (viewOf M w ⟨i.pre, i.past⟩)[k]? = some x) := by
    intro f n x hx
    constructor
    · rintro ⟨i, hi, ht⟩
      cases hop : i.op with
      | remove k =>
        refine ⟨i, k, hi, hop, ?_⟩
        rw [hop, target, visibleIdAt, Option.map_eq_some_iff] at ht
        obtain ⟨m, hm, hid⟩ := ht
        rw [viewOf, List.getElem?_map, hm, Option.map_some, hid, evOf_eq L h hx]
      | _ => rw [hop, target] at ht <;> first | cases ht | (intro _ hh; cases hh)
    · rintro ⟨i, k, hi, hop, hv⟩
      refine ⟨i, hi, ?_⟩
      rw [hop, target, visibleIdAt]
      rw [viewOf, List.getElem?_map, Option.map_eq_some_iff] at hv
      obtain ⟨m, hm, hev⟩ := hv
      rw [hm, Option.map_some]
      have hkn : Known w ⟨i.pre, i.past⟩ := Or.inr ⟨f, i, hi, rfl⟩
      have hIp := (hkn.inv L h).2
      have hmn := ((mem_visible L hIp.si.wf).1 (List.mem_of_getElem? hm)).1
      obtain ⟨y, _, m', hm', hs⟩ := hIp.src m hmn
      rw [hs.id_eq, evOf_eq L h hm'] at hev
      subst hev
      obtain ⟨j, hj, h1⟩ := hm'
      obtain ⟨j', hj', h2⟩ := hx
      rw [hj] at hj'; injection hj' with hj'; subst hj'
      rw [h1] at h2; injection h2 with h2; subst h2
      rw [hs.id_eq]
  constructor
  · intro he
    obtain ⟨n, hn, hev⟩ := List.mem_map.1 he
    obtain ⟨hn1, hn2⟩ := (mem_visible L hI.si.wf).1 hn
    obtain ⟨x, hx, k, hk, hs⟩ := hI.src n hn1
    rw [hs.id_eq, evOf_eq L h hk] at hev
    subst hev
    refine ⟨hx, ?_, ?_⟩
    · obtain ⟨i, hi, h1⟩ := hk
      exact ⟨i, k.value, hi, by rw [← newNode_isSome (M := M) i.op i.pre, h1]; rfl⟩
    · rintro ⟨f, hf, hr⟩
      have := (hI.del n hn1).2 ⟨f, hf, by rw [hs.id_eq]; exact (rem_iff f k x hk).2 hr⟩
      rw [hn2] at this; cases this
  · rintro ⟨he, ⟨i, v, hi, hv⟩, hno⟩
    cases hnn : newNode M i.op i.pre with
    | none => rw [← newNode_isSome (M := M) i.op i.pre, hnn] at hv; cases hv
    | some k =>
      have hk : Creates M w.issue? e k := ⟨i, hi, hnn⟩
      obtain ⟨n, hn, hid⟩ := hI.ids e he k hk
      refine List.mem_map.2 ⟨n, (mem_visible L hI.si.wf).2 ⟨hn, ?_⟩, by rw [hid, evOf_eq L h hk]⟩
      rw [← Bool.not_eq_true, hI.del n hn]
      rintro ⟨f, hf, hr⟩
      rw [hid] at hr
      exact hno ⟨f, hf, (rem_iff f k e hk).1 hr⟩

theorem viewOf_order (L : Lawful M) {w} (h : Reachable (rdt M) w) {c d} (hc : Known w c) (hd : Known w d) :
    (viewOf M w c).filter (fun e => decide (e ∈ viewOf M w d)) =
      (viewOf M w d).filter (fun e => decide (e ∈ viewOf M w c)) := by
  have hcI := hc.inv L h
  have hdI := hd.inv L h
  have key := hcI.2.common_order L (seq_inv L h).hist hcI.1 hdI.1 hdI.2
  simp only at key
  have mapf : ∀ {c d}, Known w c → Known w d →
      (viewOf M w c).filter (fun e => decide (e ∈ viewOf M w d)) =
      (((c.state.visible M).map SeqNode.id).filter
        (fun x => decide (x ∈ (d.state.visible M).map SeqNode.id))).map (evOf M w) := by
    intro c d hc hd
    have hcI := (hc.inv L h).2
    have hdI := (hd.inv L h).2
    rw [show viewOf M w c = (c.state.visible M).map (fun n => evOf M w n.id) from rfl,
      List.filter_map, List.filter_map, List.map_map]
    have : (c.state.visible M).filter ((fun e => decide (e ∈ viewOf M w d)) ∘ fun n => evOf M w n.id) =
        (c.state.visible M).filter ((fun x => decide (x ∈ (d.state.visible M).map SeqNode.id)) ∘ SeqNode.id) := by
      apply List.filter_congr
      intro n hn
      have hn1 := ((mem_visible L hcI.si.wf).1 hn).1
      simp only [Function.comp_apply, decide_eq_decide]
      constructor
      · intro hm
        obtain ⟨m, hm, e⟩ := List.mem_map.1 hm
        have hm1 := ((mem_visible L hdI.si.wf).1 hm).1
        exact List.mem_map.2 ⟨m, hm, evOf_inj L h hd hm1 ⟨c, hc, hn1⟩ e⟩
      · intro hm
        obtain ⟨m, hm, e⟩ := List.mem_map.1 hm
        exact List.mem_map.2 ⟨m, hm, by rw [e]⟩
    rw [this]; rfl
  rw [mapf hc hd, mapf hd hc, key]

end Verif.Crdt.Seq
