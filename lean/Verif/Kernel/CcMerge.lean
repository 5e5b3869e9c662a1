import Verif.Kernel.CcLemmas
/-! # Lemmas about congruence closure: merging -/
namespace Verif.Kernel
open Verif.UnionFind Relation

/-- The pending pairs name nodes. -/
def PendOk (g : EGraph) (p : List (Nat × Nat)) : Prop :=
  ∀ e ∈ p, e.1 < g.nodes.length ∧ e.2 < g.nodes.length

theorem drain_some {uf : UF} {p rest : List (Nat × Nat)} {a b : Nat}
    (h : EGraph.drain uf p = some (a, b, rest)) :
    uf.rep a ≠ uf.rep b ∧ ∃ pre, p = pre ++ (a, b) :: rest ∧ ∀ e ∈ pre, uf.rep e.1 = uf.rep e.2 := by
  induction p with
  | nil => simp [EGraph.drain] at h
  | cons e p ih =>
    obtain ⟨x, y⟩ := e
    rw [EGraph.drain] at h
    split at h
    · rename_i he
      obtain ⟨h1, pre, h2, h3⟩ := ih h
      refine ⟨h1, (x, y) :: pre, by rw [h2]; rfl, ?_⟩
      intro e hm
      rcases List.mem_cons.1 hm with rfl | hm
      · exact he
      · exact h3 e hm
    · rename_i he
      simp only [Option.some.injEq, Prod.mk.injEq] at h
      obtain ⟨rfl, rfl, rfl⟩ := h
      exact ⟨he, [], rfl, by simp⟩

theorem drain_none {uf : UF} {p : List (Nat × Nat)} (h : EGraph.drain uf p = none) :
    ∀ e ∈ p, uf.rep e.1 = uf.rep e.2 := by
  induction p with
  | nil => simp
  | cons e p ih =>
    obtain ⟨x, y⟩ := e
    rw [EGraph.drain] at h
    split at h
    · rename_i he
      intro e hm
      rcases List.mem_cons.1 hm with rfl | hm
      · exact he
      · exact ih h e hm
    · cases h

/-! ## Uniting two classes -/

section
variable {g : EGraph} (h : WF g) {a b : Nat} (ha : a < g.nodes.length) (hb : b < g.nodes.length)
  (hne : g.uf.rep a ≠ g.uf.rep b)
include h ha hb hne

/-- The root that stays. -/
abbrev stay (g : EGraph) (a b : Nat) : Nat := win g.uf (g.uf.rep a) (g.uf.rep b)
/-- The root that goes. -/
abbrev goes (g : EGraph) (a b : Nat) : Nat := lose g.uf (g.uf.rep a) (g.uf.rep b)

omit ha hb in
theorem united_eq : g.united (g.uf.rep a) (g.uf.rep b) = g.uf.link (g.uf.rep a) (g.uf.rep b) := by
  unfold EGraph.united UF.unionRep linkIf
  rw [rep_rep h.valid, rep_rep h.valid, if_neg hne]

theorem united_valid : Valid (g.united (g.uf.rep a) (g.uf.rep b)) := by
  rw [united_eq h hne]
  exact link_valid h.valid (rep_lt h.valid (by rw [h.len]; exact ha))
    (rep_lt h.valid (by rw [h.len]; exact hb)) (rep_root h.valid a).isRoot (rep_root h.valid b).isRoot hne

omit ha hb in
theorem united_len : (g.united (g.uf.rep a) (g.uf.rep b)).len = g.nodes.length := by
  rw [united_eq h hne, link_len, h.len]

theorem united_rep (x : Nat) : (g.united (g.uf.rep a) (g.uf.rep b)).rep x =
    if g.uf.rep x = goes g a b then stay g a b else g.uf.rep x := by
  rw [united_eq h hne]
  exact link_rep h.valid (rep_lt h.valid (by rw [h.len]; exact ha))
    (rep_lt h.valid (by rw [h.len]; exact hb)) (rep_root h.valid a).isRoot (rep_root h.valid b).isRoot
    hne x

omit h ha hb in
theorem stay_goes : (stay g a b = g.uf.rep a ∧ goes g a b = g.uf.rep b) ∨
    (stay g a b = g.uf.rep b ∧ goes g a b = g.uf.rep a) := by
  unfold stay goes win lose
  split
  · exact Or.inr ⟨rfl, rfl⟩
  · exact Or.inl ⟨rfl, rfl⟩

theorem united_rep_eq (x y : Nat) :
    (g.united (g.uf.rep a) (g.uf.rep b)).rep x = (g.united (g.uf.rep a) (g.uf.rep b)).rep y ↔
      g.uf.rep x = g.uf.rep y ∨ (g.uf.rep x = g.uf.rep a ∧ g.uf.rep y = g.uf.rep b) ∨
        (g.uf.rep x = g.uf.rep b ∧ g.uf.rep y = g.uf.rep a) := by
  rw [united_rep h ha hb hne, united_rep h ha hb hne]
  rcases stay_goes (g := g) (a := a) (b := b) hne with ⟨e1, e2⟩ | ⟨e1, e2⟩ <;> rw [e1, e2] <;>
    (repeat' split) <;> omega

theorem unite_usesOf (r : Nat) : (g.unite (g.uf.rep a) (g.uf.rep b)).usesOf r =
    if r = stay g a b then g.usesOf r ++ g.usesOf (goes g a b) else g.usesOf r := by
  have hra : g.uf.rep a < g.uses.length := by
    rw [h.ulen, ← h.len]; exact rep_lt h.valid (by rw [h.len]; exact ha)
  have hrb : g.uf.rep b < g.uses.length := by
    rw [h.ulen, ← h.len]; exact rep_lt h.valid (by rw [h.len]; exact hb)
  unfold EGraph.usesOf EGraph.unite EGraph.mergedUses EGraph.usesOf
  simp only
  rw [united_rep h ha hb hne, rep_rep h.valid]
  rcases stay_goes (g := g) (a := a) (b := b) hne with ⟨e1, e2⟩ | ⟨e1, e2⟩
  · rw [e1, e2, if_neg hne, if_pos rfl, getD_modify]
    by_cases hr : r = g.uf.rep a
    · subst hr; rw [if_pos ⟨rfl, hra⟩, if_pos rfl]
    · rw [if_neg (fun hh => hr hh.1.symm), if_neg hr]
  · rw [e1, e2, if_pos rfl, if_neg (fun hh => hne hh.symm), getD_modify]
    by_cases hr : r = g.uf.rep b
    · subst hr; rw [if_pos ⟨rfl, hrb⟩, if_pos rfl]
    · rw [if_neg (fun hh => hr hh.1.symm), if_neg hr]

theorem unite_wf : WF (g.unite (g.uf.rep a) (g.uf.rep b)) := by
  refine ⟨united_valid h ha hb hne, united_len h hne, ?_, h.nodup, h.child, ?_⟩
  · unfold EGraph.unite EGraph.mergedUses
    simp only
    split <;> simp [h.ulen]
  · intro i u hu
    rw [unite_usesOf h ha hb hne] at hu
    split at hu
    · rcases List.mem_append.1 hu with hu | hu <;> exact h.urange _ _ hu
    · exact h.urange _ _ hu

omit h ha hb hne in
theorem mem_pushed {ra rb x y : Nat} : (x, y) ∈ g.pushed ra rb ↔
    x ∈ g.usesOf ra ∧ y ∈ g.usesOf rb ∧ EGraph.congruent g.nodes (g.united ra rb) x y = true := by
  unfold EGraph.pushed EGraph.newPairs
  simp only [List.mem_flatMap, List.mem_map, List.mem_filter, Prod.mk.injEq]
  constructor
  · rintro ⟨u, hu, v, ⟨hv, hc⟩, rfl, rfl⟩; exact ⟨hu, hv, hc⟩
  · rintro ⟨hu, hv, hc⟩; exact ⟨x, hu, y, ⟨hv, hc⟩, rfl, rfl⟩

omit ha hb hne in
theorem pushed_ok {p : List (Nat × Nat)} (hp : PendOk g p) (ra rb : Nat) :
    PendOk (g.unite ra rb) ((g.pushed ra rb).reverse ++ p) := by
  intro e he
  rcases List.mem_append.1 he with he | he
  · rw [List.mem_reverse] at he
    obtain ⟨x, y⟩ := e
    obtain ⟨h1, h2, _⟩ := mem_pushed.1 he
    exact ⟨h.urange _ _ h1, h.urange _ _ h2⟩
  · exact hp e he

end

/-! ## The bound on the unions is not reached -/

/-- The number of classes. -/
def classes (g : EGraph) : Nat := ((Finset.range g.nodes.length).filter (fun x => g.uf.rep x = x)).card

theorem classes_le (g : EGraph) : classes g ≤ g.nodes.length := by
  unfold classes
  exact (Finset.card_filter_le _ _).trans (by simp)

theorem classes_unite {g : EGraph} (h : WF g) {a b : Nat} (ha : a < g.nodes.length)
    (hb : b < g.nodes.length) (hne : g.uf.rep a ≠ g.uf.rep b) :
    classes (g.unite (g.uf.rep a) (g.uf.rep b)) < classes g := by
  unfold classes
  have hra : g.uf.rep a < g.nodes.length := by rw [← h.len]; exact rep_lt h.valid (by rw [h.len]; exact ha)
  have hrb : g.uf.rep b < g.nodes.length := by rw [← h.len]; exact rep_lt h.valid (by rw [h.len]; exact hb)
  have hg : goes g a b < g.nodes.length ∧ g.uf.rep (goes g a b) = goes g a b ∧ stay g a b ≠ goes g a b := by
    rcases stay_goes (g := g) (a := a) (b := b) hne with ⟨e1, e2⟩ | ⟨e1, e2⟩ <;> rw [e1, e2]
    · exact ⟨hrb, rep_rep h.valid b, hne⟩
    · exact ⟨hra, rep_rep h.valid a, fun e => hne e.symm⟩
  apply Finset.card_lt_card
  rw [Finset.ssubset_iff_of_subset]
  · refine ⟨goes g a b, ?_, ?_⟩
    · simp only [Finset.mem_filter, Finset.mem_range]; exact ⟨hg.1, hg.2.1⟩
    · simp only [Finset.mem_filter, Finset.mem_range, not_and]
      intro _ he
      have : (g.united (g.uf.rep a) (g.uf.rep b)).rep (goes g a b) = goes g a b := he
      rw [united_rep h ha hb hne, hg.2.1, if_pos rfl] at this
      exact hg.2.2 this
  · intro x hx
    simp only [Finset.mem_filter, Finset.mem_range] at hx ⊢
    refine ⟨hx.1, ?_⟩
    have : (g.united (g.uf.rep a) (g.uf.rep b)).rep x = x := hx.2
    rw [united_rep h ha hb hne] at this
    split at this
    · rw [← this]
      rcases stay_goes (g := g) (a := a) (b := b) hne with ⟨e1, _⟩ | ⟨e1, _⟩ <;> rw [e1] <;>
        exact rep_rep h.valid _
    · exact this

/-- Whatever is kept by each union holds at the end, when no pending pair has different classes. -/
theorem propagate_inv {P : EGraph → List (Nat × Nat) → Prop}
    (step : ∀ g p a b rest, WF g → P g p → EGraph.drain g.uf p = some (a, b, rest) →
      a < g.nodes.length → b < g.nodes.length →
      P (g.unite (g.uf.rep a) (g.uf.rep b)) ((g.pushed (g.uf.rep a) (g.uf.rep b)).reverse ++ rest)) :
    ∀ (k : Nat) (g : EGraph) (p : List (Nat × Nat)), WF g → PendOk g p → P g p → classes g ≤ k →
      ∃ p', WF (EGraph.propagate k g p) ∧ P (EGraph.propagate k g p) p' ∧
        EGraph.drain (EGraph.propagate k g p).uf p' = none ∧
        (EGraph.propagate k g p).nodes = g.nodes := by
  intro k
  induction k with
  | zero =>
    intro g p h hp hP hk
    refine ⟨p, h, hP, ?_, rfl⟩
    cases p with
    | nil => rfl
    | cons e p =>
      exfalso
      obtain ⟨h1, _⟩ := hp e List.mem_cons_self
      have hr : g.uf.rep e.1 < g.nodes.length := by
        rw [← h.len]; exact rep_lt h.valid (by rw [h.len]; exact h1)
      have : 0 < classes g := by
        unfold classes
        apply Finset.card_pos.2
        exact ⟨g.uf.rep e.1, by
          simp only [Finset.mem_filter, Finset.mem_range]; exact ⟨hr, rep_rep h.valid _⟩⟩
      omega
  | succ k ih =>
    intro g p h hp hP hk
    rw [EGraph.propagate]
    cases hd : EGraph.drain g.uf p with
    | none => exact ⟨p, h, hP, hd, rfl⟩
    | some r =>
      obtain ⟨a, b, rest⟩ := r
      obtain ⟨hne, pre, hpre, _⟩ := drain_some hd
      have hab := hp (a, b) (by rw [hpre]; simp)
      have hrest : PendOk g rest := fun e he => hp e (by rw [hpre]; simp [he])
      have hc := classes_unite h hab.1 hab.2 hne
      obtain ⟨p', h1, h2, h3, h4⟩ := ih _ _ (unite_wf h hab.1 hab.2 hne) (pushed_ok h hrest _ _)
        (step g p a b rest h hP hd hab.1 hab.2) (by omega)
      exact ⟨p', h1, h2, h3, h4⟩

/-! ## Soundness -/

/-- Nodes of one class are equal by congruence. -/
def Sound (E : Term → Term → Prop) (g : EGraph) : Prop :=
  ∀ i j t u, g.uf.rep i = g.uf.rep j → Stands g.nodes i t → Stands g.nodes j u → Follows E t u

/-- Two nodes are equal by congruence. -/
def FollowsAt (E : Term → Term → Prop) (g : EGraph) (i j : Nat) : Prop :=
  ∀ t u, Stands g.nodes i t → Stands g.nodes j u → Follows E t u

theorem congruent_iff {nodes : List ENode} {uf : UF} {x y : Nat} :
    EGraph.congruent nodes uf x y = true ↔ ∃ f1 a1 f2 a2, nodes[x]? = some (.app f1 a1) ∧
      nodes[y]? = some (.app f2 a2) ∧ uf.rep f1 = uf.rep f2 ∧ uf.rep a1 = uf.rep a2 := by
  unfold EGraph.congruent
  constructor
  · intro h
    split at h
    · rename_i f1 a1 f2 a2 e1 e2
      simp only [Bool.and_eq_true, decide_eq_true_eq] at h
      exact ⟨f1, a1, f2, a2, e1, e2, h.1, h.2⟩
    · cases h
  · rintro ⟨f1, a1, f2, a2, e1, e2, h1, h2⟩
    rw [e1, e2]; simp [h1, h2]

theorem unite_sound {E : Term → Term → Prop} {g : EGraph} (h : WF g) (hs : Sound E g) {a b : Nat}
    (ha : a < g.nodes.length) (hb : b < g.nodes.length) (hne : g.uf.rep a ≠ g.uf.rep b)
    (hab : FollowsAt E g a b) : Sound E (g.unite (g.uf.rep a) (g.uf.rep b)) := by
  intro i j t u hr ht hu
  have ht' : Stands g.nodes i t := ht
  have hu' : Stands g.nodes j u := hu
  obtain ⟨x, hx⟩ := h.stands a ha
  obtain ⟨y, hy⟩ := h.stands b hb
  rcases (united_rep_eq h ha hb hne i j).1 hr with e | ⟨e1, e2⟩ | ⟨e1, e2⟩
  · exact hs i j t u e ht' hu'
  · exact .trans (hs _ _ _ _ e1 ht' hx) (.trans (hab x y hx hy) (hs _ _ _ _ e2.symm hy hu'))
  · exact .trans (hs _ _ _ _ e1 ht' hy) (.trans (.symm (hab x y hx hy)) (hs _ _ _ _ e2.symm hx hu'))

theorem stands_app {nodes : List ENode} {i f a : Nat} {t : Term} (e : nodes[i]? = some (.app f a))
    (h : Stands nodes i t) : ∃ u v, t = sApp u v ∧ Stands nodes f u ∧ Stands nodes a v := by
  cases h with
  | app e' h1 h2 => rw [e] at e'; cases e'; exact ⟨_, _, rfl, h1, h2⟩
  | lit e' => rw [e] at e'; cases e'
  | var e' => rw [e] at e'; cases e'
  | name e' => rw [e] at e'; cases e'

theorem merge_sound {E : Term → Term → Prop} {g : EGraph} (h : WF g) (hs : Sound E g) {a b : Nat}
    (ha : a < g.nodes.length) (hb : b < g.nodes.length) (hab : FollowsAt E g a b) :
    WF (g.merge a b) ∧ Sound E (g.merge a b) ∧ (g.merge a b).nodes = g.nodes := by
  have key := propagate_inv (P := fun g' p => g'.nodes = g.nodes ∧ Sound E g' ∧ ∀ e ∈ p, FollowsAt E g' e.1 e.2)
    (by
      rintro g' p x y rest h' ⟨hn, hs', hp⟩ hd hx hy
      obtain ⟨hne, pre, hpre, _⟩ := drain_some hd
      have hxy := hp (x, y) (by rw [hpre]; simp)
      have hs'' := unite_sound h' hs' hx hy hne hxy
      refine ⟨hn, hs'', ?_⟩
      intro e he
      rcases List.mem_append.1 he with he | he
      · rw [List.mem_reverse] at he
        obtain ⟨p1, p2⟩ := e
        obtain ⟨_, _, hc⟩ := mem_pushed.1 he
        obtain ⟨f1, a1, f2, a2, e1, e2, r1, r2⟩ := congruent_iff.1 hc
        intro t u ht hu
        obtain ⟨t1, t2, rfl, s1, s2⟩ := stands_app (nodes := g'.nodes) e1 ht
        obtain ⟨u1, u2, rfl, s3, s4⟩ := stands_app (nodes := g'.nodes) e2 hu
        exact .congr (hs'' f1 f2 _ _ r1 s1 s3) (hs'' a1 a2 _ _ r2 s2 s4)
      · exact hp e (by rw [hpre]; simp [he]))
    g.nodes.length g [(a, b)] h (by intro e he; rw [List.mem_singleton.1 he]; exact ⟨ha, hb⟩)
    ⟨rfl, hs, by intro e he; rw [List.mem_singleton.1 he]; exact hab⟩ (classes_le g)
  obtain ⟨p', h1, ⟨_, h2, _⟩, _, h4⟩ := key
  exact ⟨h1, h2, h4⟩

theorem grown_sound {E : Term → Term → Prop} {g g' : EGraph} (h : WF g) (hs : Sound E g)
    (hg : Grown g g') : Sound E g' := by
  intro i j t u hr ht hu
  rw [hg.rep, hg.rep] at hr
  obtain ⟨ext, he⟩ := hg.nodes
  by_cases hi : i < g.nodes.length
  · have hj : j < g.nodes.length := by
      by_contra hj
      have h1 : g.uf.rep i < g.uf.len := rep_lt h.valid (by rw [h.len]; exact hi)
      rw [hr, rep_out h.valid (by rw [h.len]; omega)] at h1
      rw [h.len] at h1; omega
    rw [he] at ht hu
    exact hs i j t u hr (h.restrict hi ht) (h.restrict hj hu)
  · have hj : ¬ j < g.nodes.length := by
      intro hj
      have h1 : g.uf.rep j < g.uf.len := rep_lt h.valid (by rw [h.len]; exact hj)
      rw [← hr, rep_out h.valid (by rw [h.len]; omega)] at h1
      rw [h.len] at h1; omega
    rw [rep_out h.valid (by rw [h.len]; omega), rep_out h.valid (by rw [h.len]; omega)] at hr
    subst hr
    rw [ht.unique hu]; exact .refl _

theorem new_sound (E : Term → Term → Prop) : Sound E EGraph.new := by
  intro i j t u _ ht _
  have := ht.lt
  simp [EGraph.new] at this

/-- The equations of a list. -/
def Among (hs : List (Term × Term)) (t u : Term) : Prop := (t, u) ∈ hs

theorem assertAll_sound {E : Term → Term → Prop} {hs : List (Term × Term)} {g g' : EGraph} (h : WF g)
    (hg : Sound E g) (hE : ∀ e ∈ hs, E e.1 e.2) (ha : assertAll hs g = some g') :
    WF g' ∧ Sound E g' ∧ ∃ ext, g'.nodes = g.nodes ++ ext := by
  induction hs generalizing g with
  | nil =>
    rw [assertAll] at ha; cases ha
    exact ⟨h, hg, [], by simp⟩
  | cons e hs ih =>
    obtain ⟨l, r⟩ := e
    rw [assertAll] at ha
    cases h1 : ccReify l g with
    | none => rw [h1] at ha; cases ha
    | some p =>
      obtain ⟨i, g1⟩ := p
      rw [h1] at ha
      simp only at ha
      cases h2 : ccReify r g1 with
      | none => rw [h2] at ha; cases ha
      | some q =>
        obtain ⟨j, g2⟩ := q
        rw [h2] at ha
        simp only at ha
        obtain ⟨k1, s1⟩ := reify_grown h h1
        obtain ⟨k2, s2⟩ := reify_grown k1.wf h2
        have s1' := k2.stands s1
        have hab : FollowsAt E g2 i j := by
          intro t u ht hu
          rw [ht.unique s1', hu.unique s2]
          exact .base (hE (l, r) List.mem_cons_self)
        obtain ⟨m1, m2, m3⟩ := merge_sound k2.wf (grown_sound k1.wf (grown_sound h hg k1) k2) s1'.lt s2.lt hab
        obtain ⟨n1, n2, ext, n3⟩ := ih m1 m2 (fun e he => hE e (List.mem_cons_of_mem _ he)) ha
        obtain ⟨x1, y1⟩ := k1.nodes
        obtain ⟨x2, y2⟩ := k2.nodes
        exact ⟨n1, n2, x1 ++ x2 ++ ext, by rw [n3, m3, y2, y1]; simp⟩

/-- An accepted goal: its conclusion follows from its equations by congruence. -/
theorem ccAccepts_follows {goal : Term} (h : ccAccepts goal = true) :
    ∃ l r, ccEquality (ccDecompose goal).2 = some (l, r) ∧ Simple l ∧ Simple r ∧
      (∀ e ∈ (ccDecompose goal).1, Simple e.1 ∧ Simple e.2) ∧
      Follows (fun t u => (t, u) ∈ (ccDecompose goal).1) l r := by
  unfold ccAccepts at h
  cases he : ccEquality (ccDecompose goal).2 with
  | none => rw [he] at h; cases h
  | some p =>
    obtain ⟨l, r⟩ := p
    rw [he] at h
    simp only at h
    cases h1 : ccReify l EGraph.new with
    | none => rw [h1] at h; cases h
    | some p =>
      obtain ⟨i, g1⟩ := p
      rw [h1] at h
      simp only at h
      cases h2 : ccReify r g1 with
      | none => rw [h2] at h; cases h
      | some q =>
        obtain ⟨j, g2⟩ := q
        rw [h2] at h
        simp only at h
        cases h3 : assertAll (ccDecompose goal).1 g2 with
        | none => rw [h3] at h; cases h
        | some g3 =>
          rw [h3] at h
          obtain ⟨k1, s1⟩ := reify_grown new_wf h1
          obtain ⟨k2, s2⟩ := reify_grown k1.wf h2
          have s1' := k2.stands s1
          obtain ⟨m1, m2, ext, m3⟩ := assertAll_sound (E := fun t u => (t, u) ∈ (ccDecompose goal).1)
            k2.wf (grown_sound k1.wf (grown_sound new_wf (new_sound _) k1) k2) (fun e he => he) h3
          have hr : g3.uf.rep i = g3.uf.rep j := by
            simpa [ccFinish, EGraph.equivalent] using h
          refine ⟨l, r, rfl, simple_of_reify _ h1, simple_of_reify _ h2, ?_,
            m2 i j l r hr (by rw [m3]; exact s1'.mono ext) (by rw [m3]; exact s2.mono ext)⟩
          clear h m1 m2 m3 hr s1 s1' s2 k1 k2 h1 h2
          generalize (ccDecompose goal).1 = hs at h3
          induction hs generalizing g2 with
          | nil => simp
          | cons e hs ih =>
            obtain ⟨a, b⟩ := e
            rw [assertAll] at h3
            cases h1 : ccReify a g2 with
            | none => rw [h1] at h3; cases h3
            | some p =>
              obtain ⟨i, g1⟩ := p
              rw [h1] at h3
              simp only at h3
              cases h2 : ccReify b g1 with
              | none => rw [h2] at h3; cases h3
              | some q =>
                obtain ⟨j, g2⟩ := q
                rw [h2] at h3
                simp only at h3
                intro e he
                rcases List.mem_cons.1 he with rfl | he
                · exact ⟨simple_of_reify _ h1, simple_of_reify _ h2⟩
                · exact ih _ h3 e he

end Verif.Kernel
