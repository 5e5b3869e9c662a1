import Verif.Crdt.Sequence
import Mathlib.Data.List.Basic
import Mathlib.Data.List.Nodup
/-! # The document order of replicated sequences: helper lemmas -/
namespace Verif.Crdt

namespace SeqId
theorem le_iff (a b : SeqId) : a.le b = true ↔ a.ts < b.ts ∨ (a.ts = b.ts ∧ a.rep ≤ b.rep) := by
  simp only [le]; split <;> simp <;> omega
theorem le_refl (a : SeqId) : a.le a = true := by rw [le_iff]; omega
theorem le_total (a b : SeqId) : a.le b = true ∨ b.le a = true := by rw [le_iff, le_iff]; omega
theorem le_trans {a b c : SeqId} (h : a.le b = true) (h' : b.le c = true) : a.le c = true := by
  rw [le_iff] at *; omega
theorem le_antisymm {a b : SeqId} (h : a.le b = true) (h' : b.le a = true) : a = b := by
  rw [le_iff] at *
  obtain ⟨t, r⟩ := a
  obtain ⟨t', r'⟩ := b
  simp only [mk.injEq] at *; omega
/-- strictly smaller -/
def lt (a b : SeqId) : Prop := b.le a = false
theorem lt_iff (a b : SeqId) : a.lt b ↔ a.ts < b.ts ∨ (a.ts = b.ts ∧ a.rep < b.rep) := by
  rw [lt, ← Bool.not_eq_true, le_iff]; omega
end SeqId

namespace Seq
variable {X T : Type}

theorem pushAll_eq {N : Type} (l st : List N) : pushAll l st = l.reverse ++ st := by
  induction l generalizing st with
  | nil => rfl
  | cons a t ih => simp only [pushAll, List.foldl_cons] at *; rw [ih]; simp

/-- Well-formed node lists: unique ids; a parent is present and older. -/
structure WF (nodes : List (SeqNode X T)) : Prop where
  nodup : (nodes.map SeqNode.id).Nodup
  parent : ∀ n ∈ nodes, ∀ p, n.parent = some p → (∃ m ∈ nodes, m.id = p) ∧ p.lt n.id

theorem WF.inj {nodes : List (SeqNode X T)} (h : WF nodes) {a b : SeqNode X T} (ha : a ∈ nodes)
    (hb : b ∈ nodes) (e : a.id = b.id) : a = b :=
  List.inj_on_of_nodup_map h.nodup ha hb e

/-- children, newest first -/
def ch (nodes : List (SeqNode X T)) (p : Option SeqId) : List (SeqNode X T) :=
  sortBy (fun a b => b.id.le a.id) (nodes.filter (fun n => decide (n.parent = p)))

theorem ch_nil (p : Option SeqId) : ch ([] : List (SeqNode X T)) p = [] := by simp [ch, sortBy]

theorem mem_ch {nodes : List (SeqNode X T)} {p : Option SeqId} {n : SeqNode X T} :
    n ∈ ch nodes p ↔ n ∈ nodes ∧ n.parent = p := by
  rw [ch, (sortBy_perm _ _).mem_iff]; simp

theorem ch_pairwise (nodes : List (SeqNode X T)) (p : Option SeqId) :
    (ch nodes p).Pairwise (fun a b => b.id.le a.id = true) := by
  apply sortBy_pairwise
  · intro a b c h1 h2; exact SeqId.le_trans h2 h1
  · intro a b; exact SeqId.le_total _ _

theorem ch_eq_of {nodes : List (SeqNode X T)} (h : WF nodes) {p : Option SeqId}
    {l : List (SeqNode X T)} (hp : l.Perm (nodes.filter (fun n => decide (n.parent = p))))
    (hs : l.Pairwise (fun a b => b.id.le a.id = true)) : l = ch nodes p := by
  refine List.Perm.eq_of_pairwise ?_ hs (ch_pairwise nodes p) (hp.trans (sortBy_perm _ _).symm)
  intro a b ha hb h1 h2
  have ha' : a ∈ nodes := (List.mem_filter.1 (hp.subset ha)).1
  exact h.inj ha' (mem_ch.1 hb).1 (SeqId.le_antisymm h2 h1)

theorem WF.perm {l l' : List (SeqNode X T)} (h : WF l) (hp : l.Perm l') : WF l' := by
  refine ⟨(hp.map _).nodup_iff.1 h.nodup, ?_⟩
  intro n hn p hpar
  obtain ⟨⟨m, hm, e⟩, hlt⟩ := h.parent n (hp.mem_iff.2 hn) p hpar
  exact ⟨⟨m, hp.mem_iff.1 hm, e⟩, hlt⟩

theorem ch_perm {l l' : List (SeqNode X T)} (h : WF l) (hp : l.Perm l') : ch l = ch l' := by
  funext p
  exact ch_eq_of (h.perm hp) ((sortBy_perm _ _).trans (hp.filter _)) (ch_pairwise l p)

/-- The walk as a relation, without fuel. -/
inductive Dfs (c : Option SeqId → List (SeqNode X T)) : List (SeqNode X T) → List (SeqNode X T) → Prop
  | nil : Dfs c [] []
  | cons {n st out} : Dfs c (c (some n.id) ++ st) out → Dfs c (n :: st) (n :: out)

theorem Dfs.det {c : Option SeqId → List (SeqNode X T)} {st o o'} (h : Dfs c st o) (h' : Dfs c st o') :
    o = o' := by
  induction h generalizing o' with
  | nil => cases h'; rfl
  | cons _ ih => cases h' with | cons h2 => rw [ih h2]

theorem walk_eq {kids c : Option SeqId → List (SeqNode X T)} (hk : ∀ p, (kids p).reverse = c p)
    {st out} (h : Dfs c st out) : ∀ f, out.length ≤ f → walk kids f st = out := by
  induction h with
  | nil => intro f _; cases f <;> rfl
  | cons _ ih =>
    intro f hf
    cases f with
    | zero => simp at hf
    | succ f =>
      rw [walk, pushAll_eq, hk, ih f (by simpa using hf)]

/-- put `n` right behind every element with id `p` -/
def ins (p : Option SeqId) (n : SeqNode X T) (l : List (SeqNode X T)) : List (SeqNode X T) :=
  l.flatMap (fun x => if some x.id = p then [x, n] else [x])

/-- put `n` behind its parent, or in front if it has none -/
def doc (n : SeqNode X T) (l : List (SeqNode X T)) : List (SeqNode X T) :=
  match n.parent with
  | none => n :: l
  | some p => ins (some p) n l

theorem Dfs.ins {c c' : Option SeqId → List (SeqNode X T)} {p n} (hc : ∀ q, c' q = if q = p then n :: c q else c q)
    (hn : c' (some n.id) = []) {st out} (h : Dfs c st out) : Dfs c' st (Seq.ins p n out) := by
  induction h with
  | nil => exact .nil
  | @cons x st out _ ih =>
    simp only [Seq.ins, List.flatMap_cons]
    by_cases hp : some x.id = p
    · rw [if_pos hp]
      refine .cons ?_
      rw [hc, if_pos hp]
      show Dfs c' (n :: (c (some x.id) ++ st)) (n :: Seq.ins p n out)
      refine .cons ?_
      rw [hn]; exact ih
    · rw [if_neg hp]
      refine .cons ?_
      rw [hc, if_neg hp]; exact ih

theorem ins_none (n : SeqNode X T) (l : List (SeqNode X T)) : ins none n l = l := by
  simp [ins]

/-- `n` is the newest node of `nodes'`. -/
structure Newest (n : SeqNode X T) (nodes nodes' : List (SeqNode X T)) : Prop where
  wf : WF nodes'
  perm : nodes'.Perm (n :: nodes)
  max : ∀ m ∈ nodes, m.id.le n.id = true

theorem Newest.mem {n : SeqNode X T} {l l'} (h : Newest n l l') : n ∈ l' :=
  h.perm.mem_iff.2 List.mem_cons_self

theorem Newest.notMem {n : SeqNode X T} {l l'} (h : Newest n l l') {m} (hm : m ∈ l) : m.id ≠ n.id := by
  have := (h.perm.map SeqNode.id).nodup_iff.1 h.wf.nodup
  rw [List.map_cons, List.nodup_cons] at this
  intro e; exact this.1 (List.mem_map.2 ⟨m, hm, e⟩)

theorem Newest.wf0 {n : SeqNode X T} {l l'} (h : Newest n l l') : WF l := by
  have nd := (h.perm.map SeqNode.id).nodup_iff.1 h.wf.nodup
  rw [List.map_cons, List.nodup_cons] at nd
  refine ⟨nd.2, ?_⟩
  intro m hm p hp
  obtain ⟨⟨k, hk, e⟩, hlt⟩ := h.wf.parent m (h.perm.mem_iff.2 (List.mem_cons_of_mem _ hm)) p hp
  refine ⟨⟨k, ?_, e⟩, hlt⟩
  rcases List.mem_cons.1 (h.perm.mem_iff.1 hk) with rfl | hk'
  · have h1 := h.max m hm
    rw [e] at h1; rw [SeqId.lt, h1] at hlt; cases hlt
  · exact hk'

theorem Newest.ch_eq {n : SeqNode X T} {l l'} (h : Newest n l l') (q : Option SeqId) :
    ch l' q = if q = n.parent then n :: ch l q else ch l q := by
  symm
  apply ch_eq_of h.wf
  · have hp : (l'.filter (fun n => decide (n.parent = q))).Perm ((n :: l).filter (fun n => decide (n.parent = q))) :=
      h.perm.filter _
    refine List.Perm.trans ?_ hp.symm
    by_cases hq : q = n.parent
    · rw [if_pos hq, List.filter_cons, if_pos (by simp [hq])]
      exact (sortBy_perm _ _).cons _
    · rw [if_neg hq, List.filter_cons, if_neg (by simpa using fun e => hq e.symm)]
      exact sortBy_perm _ _
  · split
    · refine List.Pairwise.cons ?_ (ch_pairwise _ _)
      intro m hm; exact h.max m (mem_ch.1 hm).1
    · exact ch_pairwise _ _

theorem Newest.ch_self {n : SeqNode X T} {l l'} (h : Newest n l l') : ch l' (some n.id) = [] := by
  rw [List.eq_nil_iff_forall_not_mem]
  intro m hm
  obtain ⟨hm, hp⟩ := mem_ch.1 hm
  have hlt := (h.wf.parent m hm _ hp).2
  have : m.id.le n.id = true := by
    rcases List.mem_cons.1 (h.perm.mem_iff.1 hm) with rfl | hm
    · exact SeqId.le_refl _
    · exact h.max m hm
  rw [SeqId.lt, this] at hlt; cases hlt

theorem Newest.dfs {n : SeqNode X T} {l l'} (h : Newest n l l') {out} (hd : Dfs (ch l) (ch l none) out) :
    Dfs (ch l') (ch l' none) (doc n out) := by
  have h1 := Dfs.ins h.ch_eq h.ch_self hd
  simp only [doc]
  cases hp : n.parent with
  | none =>
    rw [hp, ins_none] at h1
    simp only
    rw [h.ch_eq none, if_pos hp.symm]
    refine .cons ?_
    rw [h.ch_self]; exact h1
  | some p =>
    rw [hp] at h1
    simp only
    rw [h.ch_eq none, if_neg (by rw [hp]; simp)]
    exact h1

theorem exists_newest {l : List (SeqNode X T)} (h : WF l) (hne : l ≠ []) : ∃ n l0, Newest n l0 l := by
  have : ∀ l : List (SeqNode X T), l ≠ [] → ∃ n ∈ l, ∀ m ∈ l, m.id.le n.id = true := by
    intro l
    induction l with
    | nil => intro h; exact absurd rfl h
    | cons a t ih =>
      intro _
      cases t with
      | nil => exact ⟨a, by simp, by simp [SeqId.le_refl]⟩
      | cons b t =>
        obtain ⟨n, hn, hm⟩ := ih (by simp)
        rcases SeqId.le_total a.id n.id with hle | hle
        · refine ⟨n, List.mem_cons_of_mem _ hn, ?_⟩
          intro m hm'
          rcases List.mem_cons.1 hm' with rfl | hm'
          · exact hle
          · exact hm m hm'
        · refine ⟨a, List.mem_cons_self, ?_⟩
          intro m hm'
          rcases List.mem_cons.1 hm' with rfl | hm'
          · exact SeqId.le_refl _
          · exact SeqId.le_trans (hm m hm') hle
  obtain ⟨n, hn, hm⟩ := this l hne
  obtain ⟨s, t, rfl⟩ := List.append_of_mem hn
  refine ⟨n, s ++ t, h, List.perm_middle, ?_⟩
  intro m hm'
  apply hm
  simp only [List.mem_append, List.mem_cons] at *
  tauto

theorem ins_perm {p : SeqId} {n : SeqNode X T} : ∀ {l : List (SeqNode X T)}, (l.map SeqNode.id).Nodup →
    (∃ m ∈ l, m.id = p) → (ins (some p) n l).Perm (n :: l) := by
  intro l
  induction l with
  | nil => rintro _ ⟨m, hm, _⟩; cases hm
  | cons a t ih =>
    intro nd ⟨m, hm, hmp⟩
    rw [List.map_cons, List.nodup_cons] at nd
    simp only [ins, List.flatMap_cons]
    by_cases ha : a.id = p
    · rw [if_pos (by rw [ha])]
      have : ∀ x ∈ t, ¬ some x.id = some p := by
        intro x hx e; injection e with e
        exact nd.1 (List.mem_map.2 ⟨x, hx, by rw [e, ha]⟩)
      have : t.flatMap (fun x => if some x.id = some p then [x, n] else [x]) = t := by
        clear ih nd hm
        induction t with
        | nil => rfl
        | cons b t ih =>
          rw [List.flatMap_cons, if_neg (this b (by simp)), ih (fun x hx => this x (by simp [hx]))]; rfl
      rw [this]
      exact List.Perm.swap n a t
    · rw [if_neg (by simpa using ha)]
      have hm' : ∃ m ∈ t, m.id = p := by
        rcases List.mem_cons.1 hm with rfl | hm
        · exact absurd hmp ha
        · exact ⟨m, hm, hmp⟩
      exact ((ih nd.2 hm').cons a).trans (List.Perm.swap n a t)

/-- The walk visits every node exactly once. -/
theorem dfs_exists : ∀ (k : Nat) (l : List (SeqNode X T)), l.length = k → WF l →
    ∃ out, Dfs (ch l) (ch l none) out ∧ out.Perm l := by
  intro k
  induction k with
  | zero =>
    intro l hl _
    rw [List.length_eq_zero_iff] at hl; subst hl
    exact ⟨[], by rw [ch_nil]; exact .nil, .refl _⟩
  | succ k ih =>
    intro l hl hwf
    obtain ⟨n, l0, hN⟩ := exists_newest hwf (by rintro rfl; simp at hl)
    have hlen := hN.perm.length_eq
    obtain ⟨out, hd, hp⟩ := ih l0 (by simp at hlen; omega) hN.wf0
    refine ⟨doc n out, hN.dfs hd, ?_⟩
    refine List.Perm.trans ?_ hN.perm.symm
    simp only [doc]
    cases hpar : n.parent with
    | none => exact hp.cons n
    | some p =>
      refine (ins_perm ((hp.map _).nodup_iff.2 hN.wf0.nodup) ?_).trans (hp.cons n)
      obtain ⟨⟨m, hm, e⟩, hlt⟩ := hN.wf.parent n hN.mem p hpar
      rcases List.mem_cons.1 (hN.perm.mem_iff.1 hm) with rfl | hm
      · rw [e] at hlt; rw [SeqId.lt, SeqId.le_refl] at hlt; cases hlt
      · exact ⟨m, hp.mem_iff.2 hm, e⟩

/-- A document order that agrees with the walk on well-formed nodes. -/
def Lawful (M : Impl X T) : Prop :=
  ∀ nodes, WF nodes → Dfs (ch nodes) (ch nodes none) (M.sorted nodes)

theorem dfs_complete {kids : List (SeqNode X T) → Option SeqId → List (SeqNode X T)}
    (hk : ∀ nodes, WF nodes → ∀ p, (kids nodes p).reverse = ch nodes p) (nodes : List (SeqNode X T))
    (h : WF nodes) :
    Dfs (ch nodes) (ch nodes none) (walk (kids nodes) nodes.length (pushAll (kids nodes none) [])) := by
  obtain ⟨out, hd, hp⟩ := dfs_exists _ nodes rfl h
  rw [pushAll_eq, hk nodes h, List.append_nil, walk_eq (hk nodes h) hd _ (Nat.le_of_eq hp.length_eq)]
  exact hd

theorem rga_lawful : Lawful (rgaImpl (T := T)) := by
  intro nodes h
  apply dfs_complete (kids := rgaKids) _ nodes h
  intro nodes h p
  rw [rgaKids, List.reverse_reverse]; rfl

theorem yata_lawful : Lawful (yataImpl (T := T)) := by
  intro nodes h
  apply dfs_complete (kids := yataKids) _ nodes h
  intro nodes h p
  apply ch_eq_of h
  · exact (List.reverse_perm _).trans (sortBy_perm _ _)
  · rw [List.pairwise_reverse]
    apply sortBy_pairwise
    · intro a b c h1 h2; exact SeqId.le_trans h1 h2
    · intro a b; exact SeqId.le_total _ _

section
variable {M : Impl X T} (L : Lawful M)
include L

theorem Lawful.sorted_perm {nodes} (h : WF nodes) : (M.sorted nodes).Perm nodes := by
  obtain ⟨out, hd, hp⟩ := dfs_exists _ nodes rfl h
  rw [(L nodes h).det hd]; exact hp

theorem Lawful.sorted_congr {l l'} (h : WF l) (hp : l.Perm l') : M.sorted l = M.sorted l' := by
  have h1 := L l h
  rw [ch_perm h hp] at h1
  exact h1.det (L l' (h.perm hp))

theorem Lawful.sorted_newest {n l l'} (h : Newest n l l') : M.sorted l' = doc n (M.sorted l) :=
  (L l' h.wf).det (h.dfs (L l h.wf0))
end

/-- renaming payloads does not change the order -/
theorem Dfs.map {X' T' : Type} {c : Option SeqId → List (SeqNode X T)}
    {c' : Option SeqId → List (SeqNode X' T')} {f : SeqNode X T → SeqNode X' T'}
    (hid : ∀ n, (f n).id = n.id) (hc : ∀ p, c' p = (c p).map f) {st out} (h : Dfs c st out) :
    Dfs c' (st.map f) (out.map f) := by
  induction h with
  | nil => exact .nil
  | @cons n st out _ ih =>
    rw [List.map_cons, List.map_cons]
    refine .cons ?_
    rw [hid, hc, ← List.map_append]; exact ih

theorem ch_map {X' T' : Type} {f : SeqNode X T → SeqNode X' T'} (hid : ∀ n, (f n).id = n.id)
    (hpar : ∀ n, (f n).parent = n.parent) (l : List (SeqNode X T)) (p : Option SeqId) :
    ch (l.map f) p = (ch l p).map f := by
  rw [ch, ch, map_sortBy (s := fun a b => b.id.le a.id)]
  · rw [List.filter_map]
    have : ((fun n => decide (n.parent = p)) ∘ f) = (fun n => decide (n.parent = p)) := by
      funext n; simp [hpar]
    rw [this]
  · intro a b; rw [hid, hid]

theorem WF.map {X' T' : Type} {f : SeqNode X T → SeqNode X' T'} (hid : ∀ n, (f n).id = n.id)
    (hpar : ∀ n, (f n).parent = n.parent) {l : List (SeqNode X T)} (h : WF l) : WF (l.map f) := by
  refine ⟨?_, ?_⟩
  · rw [List.map_map]
    have : (SeqNode.id ∘ f) = (SeqNode.id : SeqNode X T → SeqId) := by funext n; exact hid n
    rw [this]; exact h.nodup
  · intro n hn p hp
    obtain ⟨m, hm, rfl⟩ := List.mem_map.1 hn
    rw [hpar] at hp
    obtain ⟨⟨k, hk, e⟩, hlt⟩ := h.parent m hm p hp
    exact ⟨⟨f k, List.mem_map.2 ⟨k, hk, rfl⟩, by rw [hid]; exact e⟩, by rw [hid]; exact hlt⟩

theorem Lawful.sorted_map {M : Impl X T} (L : Lawful M) {f : SeqNode X T → SeqNode X T}
    (hid : ∀ n, (f n).id = n.id) (hpar : ∀ n, (f n).parent = n.parent) {l} (h : WF l) :
    M.sorted (l.map f) = (M.sorted l).map f := by
  have h1 := (L l h).map hid (ch_map hid hpar l)
  rw [← ch_map hid hpar] at h1
  exact (L _ (h.map hid hpar)).det h1

theorem ins_sublist {p : Option SeqId} {n : SeqNode X T} {l l'} (h : List.Sublist l l') :
    List.Sublist (ins p n l) (ins p n l') := by
  induction h with
  | slnil => exact .slnil
  | cons a _ ih => rw [ins, ins, List.flatMap_cons]; exact ih.trans (List.sublist_append_right _ _)
  | cons_cons a _ ih =>
    rw [ins, ins, List.flatMap_cons, List.flatMap_cons]
    exact (List.Sublist.refl _).append ih

theorem doc_mono {n : SeqNode X T} {l l'} (h : List.Sublist l l') :
    List.Sublist (doc n l) (doc n l') := by
  simp only [doc]
  split
  · exact h.cons_cons n
  · exact ins_sublist h

theorem sublist_doc (n : SeqNode X T) (l) : List.Sublist l (doc n l) := by
  simp only [doc]
  split
  · exact List.sublist_cons_self _ _
  · next p _ =>
    induction l with
    | nil => exact .slnil
    | cons a t ih =>
      rw [ins, List.flatMap_cons]
      split
      · exact (ih.cons n).cons_cons a
      · exact ih.cons_cons a

/-- More nodes never reorder the ones that were there. -/
theorem dfs_sublist : ∀ (k : Nat) (A B : List (SeqNode X T)), B.length = k → WF A → WF B →
    (∀ n ∈ A, n ∈ B) → ∀ {oA oB}, Dfs (ch A) (ch A none) oA → Dfs (ch B) (ch B none) oB →
    List.Sublist oA oB := by
  intro k
  induction k with
  | zero =>
    intro A B hB _ _ hsub oA oB hA _
    rw [List.length_eq_zero_iff] at hB; subst hB
    have : A = [] := List.eq_nil_iff_forall_not_mem.2 (fun n hn => by simpa using hsub n hn)
    subst this
    rw [ch_nil] at hA
    cases hA.det .nil
    exact List.nil_sublist _
  | succ k ih =>
    intro A B hB wA wB hsub oA oB hA hBd
    obtain ⟨n, B0, hN⟩ := exists_newest wB (by rintro rfl; simp at hB)
    have hlen := hN.perm.length_eq
    obtain ⟨oB0, hB0, _⟩ := dfs_exists _ B0 rfl hN.wf0
    have eB := hBd.det (hN.dfs hB0)
    by_cases hn : n ∈ A
    · obtain ⟨s, t, rfl⟩ := List.append_of_mem hn
      have hNA : Newest n (s ++ t) (s ++ n :: t) := by
        refine ⟨wA, List.perm_middle, ?_⟩
        intro m hm
        have hm' : m ∈ s ++ n :: t := by simp only [List.mem_append, List.mem_cons] at *; tauto
        rcases List.mem_cons.1 (hN.perm.mem_iff.1 (hsub m hm')) with rfl | h
        · exact SeqId.le_refl _
        · exact hN.max m h
      obtain ⟨oA0, hA0, _⟩ := dfs_exists _ (s ++ t) rfl hNA.wf0
      rw [hA.det (hNA.dfs hA0), eB]
      apply doc_mono
      refine ih (s ++ t) B0 (by simp at hlen; omega) hNA.wf0 hN.wf0 ?_ hA0 hB0
      intro m hm
      have hm' : m ∈ s ++ n :: t := by simp only [List.mem_append, List.mem_cons] at *; tauto
      rcases List.mem_cons.1 (hN.perm.mem_iff.1 (hsub m hm')) with rfl | h
      · exact absurd rfl (hNA.notMem hm)
      · exact h
    · rw [eB]
      refine List.Sublist.trans ?_ (sublist_doc n oB0)
      refine ih A B0 (by simp at hlen; omega) wA hN.wf0 ?_ hA hB0
      intro m hm
      rcases List.mem_cons.1 (hN.perm.mem_iff.1 (hsub m hm)) with rfl | h
      · exact absurd hm hn
      · exact h

/-- the part of a node that decides its place -/
def skel (n : SeqNode X T) : SeqNode Unit Unit := ⟨n.id, (), false, n.parent, ()⟩

theorem Lawful.sorted_ids_sublist {M : Impl X T} (L : Lawful M) {A B : List (SeqNode X T)} (wA : WF A) (wB : WF B)
    (hsub : ∀ n ∈ A, ∃ m ∈ B, m.id = n.id ∧ m.parent = n.parent) :
    List.Sublist ((M.sorted A).map SeqNode.id) ((M.sorted B).map SeqNode.id) := by
  have hA := Dfs.map (f := skel (X := X) (T := T)) (fun _ => rfl) (ch_map (f := skel (X := X) (T := T)) (fun _ => rfl) (fun _ => rfl) A) (L A wA)
  have hB := Dfs.map (f := skel (X := X) (T := T)) (fun _ => rfl) (ch_map (f := skel (X := X) (T := T)) (fun _ => rfl) (fun _ => rfl) B) (L B wB)
  rw [← ch_map (f := skel (X := X) (T := T)) (fun _ => rfl) (fun _ => rfl)] at hA hB
  have := dfs_sublist _ (A.map skel) (B.map skel) rfl (WF.map (f := skel (X := X) (T := T)) (fun _ => rfl) (fun _ => rfl) wA)
    (WF.map (f := skel (X := X) (T := T)) (fun _ => rfl) (fun _ => rfl) wB) (by
      intro n hn
      obtain ⟨a, ha, rfl⟩ := List.mem_map.1 hn
      obtain ⟨b, hb, h1, h2⟩ := hsub a ha
      exact List.mem_map.2 ⟨b, hb, by simp [skel, h1, h2]⟩) hA hB
  have := this.map SeqNode.id
  simpa [List.map_map, Function.comp_def, skel] using this

end Seq
end Verif.Crdt
