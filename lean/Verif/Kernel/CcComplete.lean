import Verif.Kernel.CcMerge
/-! # Lemmas about congruence closure: completeness, and what goals mean -/
namespace Verif.Kernel
open Verif.UnionFind Relation

/-! ## Values -/

theorem Value.unique {α : Type} {A : AppStructure α} {t : Term} {x y : α} (h : Value A t x)
    (k : Value A t y) : x = y := by
  induction h generalizing y with
  | lit n =>
    generalize ht : sLit n = t at k
    cases k with
    | lit => simp [sLit] at ht; rw [ht]
    | var => simp [sLit, sVar] at ht
    | name => simp [sLit, sName] at ht
    | app => simp [sLit, sApp] at ht
  | var n =>
    generalize ht : sVar n = t at k
    cases k with
    | var => simp [sVar] at ht; rw [ht]
    | lit => simp [sLit, sVar] at ht
    | name => simp [sVar, sName] at ht
    | app => simp [sVar, sApp] at ht
  | name n =>
    generalize ht : sName n = t at k
    cases k with
    | name => simp [sName] at ht; rw [ht]
    | lit => simp [sLit, sName] at ht
    | var => simp [sVar, sName] at ht
    | app => simp [sName, sApp] at ht
  | @app f x u v _ _ i1 i2 =>
    generalize ht : sApp f x = t at k
    cases k with
    | app h1 h2 =>
      obtain ⟨rfl, rfl⟩ := sApp_inj ht
      rw [i1 h1, i2 h2]
    | lit => simp [sLit, sApp] at ht
    | var => simp [sVar, sApp] at ht
    | name => simp [sName, sApp] at ht

theorem Simple.value {t : Term} (h : Simple t) {α : Type} (A : AppStructure α) : ∃ x, Value A t x := by
  induction h with
  | lit n => exact ⟨_, .lit n⟩
  | var n => exact ⟨_, .var n⟩
  | name n => exact ⟨_, .name n⟩
  | app _ _ i1 i2 =>
    obtain ⟨x, hx⟩ := i1
    obtain ⟨y, hy⟩ := i2
    exact ⟨_, .app hx hy⟩

/-- Two terms have values at the same time, and then equal ones. -/
def SameValue {α : Type} (A : AppStructure α) (t u : Term) : Prop :=
  ∀ x, Value A t x ↔ Value A u x

theorem value_sApp {α : Type} {A : AppStructure α} {f x : Term} {z : α} :
    Value A (sApp f x) z ↔ ∃ u v, Value A f u ∧ Value A x v ∧ z = A.app u v := by
  constructor
  · intro h
    generalize ht : sApp f x = t at h
    cases h with
    | app h1 h2 => obtain ⟨rfl, rfl⟩ := sApp_inj ht; exact ⟨_, _, h1, h2, rfl⟩
    | lit => simp [sLit, sApp] at ht
    | var => simp [sVar, sApp] at ht
    | name => simp [sName, sApp] at ht
  · rintro ⟨u, v, h1, h2, rfl⟩; exact .app h1 h2

theorem Follows.sameValue {α : Type} {A : AppStructure α} {E : Term → Term → Prop}
    (hE : ∀ t u, E t u → SameValue A t u) {t u : Term} (h : Follows E t u) : SameValue A t u := by
  induction h with
  | base e => exact hE _ _ e
  | refl => exact fun _ => Iff.rfl
  | symm _ ih => exact fun x => (ih x).symm
  | trans _ _ i1 i2 => exact fun x => (i1 x).trans (i2 x)
  | congr _ _ i1 i2 =>
    intro z
    rw [value_sApp, value_sApp]
    simp only [i1 _, i2 _]

/-! ## Goals -/

theorem ccEquality_some {t a b : Term} (h : ccEquality t = some (a, b)) :
    ∃ s, (s = "Eq" ∨ s = "eq") ∧ t = sBin s a b := by
  unfold ccEquality at h
  cases e : extractBinaryApp t with
  | none => rw [e] at h; cases h
  | some p =>
    obtain ⟨op, x, y⟩ := p
    rw [e] at h
    simp only at h
    split at h
    · rename_i ho
      cases h
      exact ⟨op, ho, extractBinaryApp_some e⟩
    · cases h

theorem ccEquality_sBin {s : String} (h : s = "Eq" ∨ s = "eq") (a b : Term) :
    ccEquality (sBin s a b) = some (a, b) := by
  unfold ccEquality
  rw [extractBinaryApp_sBin]
  simp only
  rw [if_pos h]

theorem ccDecompose_implies (a b : Term) : ccDecompose (sBin "implies" a b) =
    ((ccEquality a).toList ++ (ccDecompose b).1, (ccDecompose b).2) := by
  simp only [sBin, sApp]
  rw [ccDecompose, if_pos ⟨rfl, rfl, by simp⟩]

theorem ccDecompose_eq {s : String} (h : s = "Eq" ∨ s = "eq") (a b : Term) :
    ccDecompose (sBin s a b) = ([], sBin s a b) := by
  simp only [sBin, sApp]
  rw [ccDecompose, if_neg]
  rintro ⟨_, _, h'⟩
  rw [extractSname_sName] at h'
  rcases h with rfl | rfl <;> simp at h'

theorem ccDecompose_equationGoal (hs : List (Term × Term)) (e : Term × Term) :
    ccDecompose (equationGoal hs e) = (hs, sBin "Eq" e.1 e.2) := by
  induction hs with
  | nil => exact ccDecompose_eq (Or.inl rfl) _ _
  | cons h hs ih =>
    rw [equationGoal, ccDecompose_implies, ih, ccEquality_sBin (Or.inl rfl)]
    rfl

/-- The goal is true when the conclusion is true given the equations. -/
theorem decompose_true {T : Term → Prop} (hT : ∀ a b, T (sBin "implies" a b) ↔ (T a → T b)) :
    ∀ (goal : Term), ((∀ e ∈ (ccDecompose goal).1, ∃ s, (s = "Eq" ∨ s = "eq") ∧ T (sBin s e.1 e.2)) →
      T (ccDecompose goal).2) → T goal
  | .app (.app (.global c) (.app (.app (.global c2) name) a)) b => by
    intro h
    rw [ccDecompose] at h
    split at h
    · rename_i hc
      obtain ⟨rfl, rfl, hn⟩ := hc
      have hb := decompose_true hT b
      rw [extractSname_some hn]
      show T (sBin "implies" a b)
      rw [hT]
      intro ha
      apply hb
      intro hs
      apply h
      intro e he
      rcases List.mem_append.1 he with he | he
      · rw [Option.mem_toList] at he
        obtain ⟨x, y⟩ := e
        obtain ⟨s, h1, rfl⟩ := ccEquality_some he
        exact ⟨s, h1, ha⟩
      · exact hs e he
    · exact h (by simp)
  | .global _ => fun h => h (by simp [ccDecompose])
  | .lit _ => fun h => h (by simp [ccDecompose])
  | .other _ => fun h => h (by simp [ccDecompose])
  | .app (.global _) _ => fun h => h (by simp [ccDecompose])
  | .app (.lit _) _ => fun h => h (by simp [ccDecompose])
  | .app (.other _) _ => fun h => h (by simp [ccDecompose])
  | .app (.app (.lit _) _) _ => fun h => h (by simp [ccDecompose])
  | .app (.app (.other _) _) _ => fun h => h (by simp [ccDecompose])
  | .app (.app (.app _ _) _) _ => fun h => h (by simp [ccDecompose])
  | .app (.app (.global _) (.global _)) _ => fun h => h (by simp [ccDecompose])
  | .app (.app (.global _) (.lit _)) _ => fun h => h (by simp [ccDecompose])
  | .app (.app (.global _) (.other _)) _ => fun h => h (by simp [ccDecompose])
  | .app (.app (.global _) (.app (.global _) _)) _ => fun h => h (by simp [ccDecompose])
  | .app (.app (.global _) (.app (.lit _) _)) _ => fun h => h (by simp [ccDecompose])
  | .app (.app (.global _) (.app (.other _) _)) _ => fun h => h (by simp [ccDecompose])
  | .app (.app (.global _) (.app (.app (.lit _) _) _)) _ => fun h => h (by simp [ccDecompose])
  | .app (.app (.global _) (.app (.app (.other _) _) _)) _ => fun h => h (by simp [ccDecompose])
  | .app (.app (.global _) (.app (.app (.app _ _) _) _)) _ => fun h => h (by simp [ccDecompose])

theorem ccAccepts_true {goal : Term} (h : ccAccepts goal = true) {α : Type} {A : AppStructure α}
    {T : Term → Prop} (hT : EqMeaning A T) : T goal := by
  obtain ⟨l, r, he, hl, hr, hs, hf⟩ := ccAccepts_follows h
  apply decompose_true hT.implication
  intro hyps
  obtain ⟨s, hs', e⟩ := ccEquality_some he
  rw [e]
  obtain ⟨x, hx⟩ := hl.value A
  obtain ⟨y, hy⟩ := hr.value A
  rw [hT.equation s l r x y hs' hx hy]
  have : SameValue A l r := by
    apply hf.sameValue
    intro t u htu
    obtain ⟨s, h1, h2⟩ := hyps _ htu
    obtain ⟨x, hx⟩ := (hs _ htu).1.value A
    obtain ⟨y, hy⟩ := (hs _ htu).2.value A
    have := (hT.equation s t u x y h1 hx hy).1 h2
    subst this
    intro z
    exact ⟨fun hz => by rw [hz.unique hx]; exact hy, fun hz => by rw [hz.unique hy]; exact hx⟩
  exact ((this x).1 hx).unique hy

/-! ## Completeness -/

/-- Equal, or about to be. -/
def Joined (g : EGraph) (p : List (Nat × Nat)) : Nat → Nat → Prop :=
  EqvGen (fun i j => g.uf.rep i = g.uf.rep j ∨ (i, j) ∈ p)

/-- The use list of a class has every application with a child in the class. -/
def UseInv (g : EGraph) : Prop :=
  ∀ u f a, g.nodes[u]? = some (.app f a) → u ∈ g.usesOf (g.uf.rep f) ∧ u ∈ g.usesOf (g.uf.rep a)

/-- Congruent applications are equal, or about to be. -/
def CongInv (g : EGraph) (p : List (Nat × Nat)) : Prop :=
  ∀ u w f1 a1 f2 a2, g.nodes[u]? = some (.app f1 a1) → g.nodes[w]? = some (.app f2 a2) →
    g.uf.rep f1 = g.uf.rep f2 → g.uf.rep a1 = g.uf.rep a2 → Joined g p u w

theorem joined_step {g : EGraph} (h : WF g) {p rest : List (Nat × Nat)} {a b : Nat}
    (ha : a < g.nodes.length) (hb : b < g.nodes.length)
    (hd : EGraph.drain g.uf p = some (a, b, rest)) {i j : Nat} (hj : Joined g p i j) :
    Joined (g.unite (g.uf.rep a) (g.uf.rep b))
      ((g.pushed (g.uf.rep a) (g.uf.rep b)).reverse ++ rest) i j := by
  obtain ⟨hne, pre, hpre, hpe⟩ := drain_some hd
  have old : ∀ i j, g.uf.rep i = g.uf.rep j →
      (g.united (g.uf.rep a) (g.uf.rep b)).rep i = (g.united (g.uf.rep a) (g.uf.rep b)).rep j :=
    fun i j e => (united_rep_eq h ha hb hne i j).2 (Or.inl e)
  induction hj with
  | rel i j e =>
    rcases e with e | e
    · exact .rel _ _ (Or.inl (old i j e))
    · rw [hpre] at e
      rcases List.mem_append.1 e with e | e
      · exact .rel _ _ (Or.inl (old i j (hpe _ e)))
      · rcases List.mem_cons.1 e with e | e
        · cases e
          exact .rel _ _ (Or.inl ((united_rep_eq h ha hb hne a b).2 (Or.inr (Or.inl ⟨rfl, rfl⟩))))
        · exact .rel _ _ (Or.inr (List.mem_append_right _ e))
  | refl => exact .refl _
  | symm _ _ _ ih => exact .symm _ _ ih
  | trans _ _ _ _ _ i1 i2 => exact .trans _ _ _ i1 i2

theorem useInv_step {g : EGraph} (h : WF g) (hu : UseInv g) {a b : Nat}
    (ha : a < g.nodes.length) (hb : b < g.nodes.length) (hne : g.uf.rep a ≠ g.uf.rep b) :
    UseInv (g.unite (g.uf.rep a) (g.uf.rep b)) := by
  have key : ∀ (u x : Nat), u ∈ g.usesOf (g.uf.rep x) →
      u ∈ (g.unite (g.uf.rep a) (g.uf.rep b)).usesOf ((g.unite (g.uf.rep a) (g.uf.rep b)).uf.rep x) := by
    intro u x hx
    rw [unite_usesOf h ha hb hne]
    show u ∈ if (g.united _ _).rep x = _ then g.usesOf ((g.united _ _).rep x) ++ _
      else g.usesOf ((g.united _ _).rep x)
    rw [united_rep h ha hb hne]
    by_cases e : g.uf.rep x = goes g a b
    · rw [if_pos e, if_pos rfl]
      exact List.mem_append_right _ (by rw [← e]; exact hx)
    · rw [if_neg e]
      split
      · exact List.mem_append_left _ hx
      · exact hx
  intro u f x hn
  have := hu u f x hn
  exact ⟨key u f this.1, key u x this.2⟩

theorem congInv_step {g : EGraph} (h : WF g) (hu : UseInv g) {p rest : List (Nat × Nat)} {a b : Nat}
    (hc : CongInv g p) (ha : a < g.nodes.length) (hb : b < g.nodes.length)
    (hd : EGraph.drain g.uf p = some (a, b, rest)) :
    CongInv (g.unite (g.uf.rep a) (g.uf.rep b))
      ((g.pushed (g.uf.rep a) (g.uf.rep b)).reverse ++ rest) := by
  obtain ⟨hne, _⟩ := drain_some hd
  intro u w f1 a1 f2 a2 e1 e2 r1 r2
  have n1 : g.nodes[u]? = some (.app f1 a1) := e1
  have n2 : g.nodes[w]? = some (.app f2 a2) := e2
  have push : u ∈ g.usesOf (g.uf.rep a) → w ∈ g.usesOf (g.uf.rep b) →
      Joined (g.unite (g.uf.rep a) (g.uf.rep b))
      ((g.pushed (g.uf.rep a) (g.uf.rep b)).reverse ++ rest) u w := by
    intro h1 h2
    refine .rel _ _ (Or.inr (List.mem_append_left _ (List.mem_reverse.2 (mem_pushed.2 ⟨h1, h2, ?_⟩))))
    exact congruent_iff.2 ⟨f1, a1, f2, a2, n1, n2, r1, r2⟩
  have push' : w ∈ g.usesOf (g.uf.rep a) → u ∈ g.usesOf (g.uf.rep b) →
      Joined (g.unite (g.uf.rep a) (g.uf.rep b))
      ((g.pushed (g.uf.rep a) (g.uf.rep b)).reverse ++ rest) u w := by
    intro h1 h2
    refine .symm _ _ (.rel _ _ (Or.inr (List.mem_append_left _
      (List.mem_reverse.2 (mem_pushed.2 ⟨h1, h2, ?_⟩)))))
    exact congruent_iff.2 ⟨f2, a2, f1, a1, n2, n1, r1.symm, r2.symm⟩
  have u1 := hu u f1 a1 n1
  have u2 := hu w f2 a2 n2
  rcases (united_rep_eq h ha hb hne f1 f2).1 r1 with q1 | ⟨q1, q2⟩ | ⟨q1, q2⟩
  · rcases (united_rep_eq h ha hb hne a1 a2).1 r2 with s1 | ⟨s1, s2⟩ | ⟨s1, s2⟩
    · exact joined_step h ha hb hd (hc u w f1 a1 f2 a2 n1 n2 q1 s1)
    · exact push (by rw [← s1]; exact u1.2) (by rw [← s2]; exact u2.2)
    · exact push' (by rw [← s2]; exact u2.2) (by rw [← s1]; exact u1.2)
  · exact push (by rw [← q1]; exact u1.1) (by rw [← q2]; exact u2.1)
  · exact push' (by rw [← q2]; exact u2.1) (by rw [← q1]; exact u1.1)

/-- The state between calls: nothing pending. -/
structure Closed' (g : EGraph) : Prop where
  wf : WF g
  use : UseInv g
  cong : ∀ u w f1 a1 f2 a2, g.nodes[u]? = some (.app f1 a1) → g.nodes[w]? = some (.app f2 a2) →
    g.uf.rep f1 = g.uf.rep f2 → g.uf.rep a1 = g.uf.rep a2 → g.uf.rep u = g.uf.rep w

theorem joined_none {g : EGraph} {p : List (Nat × Nat)} (hd : EGraph.drain g.uf p = none) {i j : Nat}
    (h : Joined g p i j) : g.uf.rep i = g.uf.rep j := by
  induction h with
  | rel i j e =>
    rcases e with e | e
    · exact e
    · exact drain_none hd _ e
  | refl => rfl
  | symm _ _ _ ih => exact ih.symm
  | trans _ _ _ _ _ i1 i2 => exact i1.trans i2

theorem merge_closed {g : EGraph} (h : Closed' g) {a b : Nat} (ha : a < g.nodes.length)
    (hb : b < g.nodes.length) :
    Closed' (g.merge a b) ∧ (g.merge a b).nodes = g.nodes ∧
      (g.merge a b).uf.rep a = (g.merge a b).uf.rep b ∧
      ∀ i j, g.uf.rep i = g.uf.rep j → (g.merge a b).uf.rep i = (g.merge a b).uf.rep j := by
  obtain ⟨p', h1, ⟨h2, h3, h4⟩, h5, h6⟩ := propagate_inv
    (P := fun g' p => UseInv g' ∧ CongInv g' p ∧
      ∀ i j, (g.uf.rep i = g.uf.rep j ∨ (i = a ∧ j = b)) → Joined g' p i j)
    (by
      rintro g' p x y rest h' ⟨hu, hc, hj⟩ hd hx hy
      obtain ⟨hne, _⟩ := drain_some hd
      exact ⟨useInv_step h' hu hx hy hne, congInv_step h' hu hc hx hy hd,
        fun i j e => joined_step h' hx hy hd (hj i j e)⟩)
    g.nodes.length g [(a, b)] h.wf (by intro e he; rw [List.mem_singleton.1 he]; exact ⟨ha, hb⟩)
    ⟨h.use, fun u w f1 a1 f2 a2 n1 n2 r1 r2 => .rel _ _ (Or.inl (h.cong u w f1 a1 f2 a2 n1 n2 r1 r2)),
      by
        rintro i j (e | ⟨rfl, rfl⟩)
        · exact .rel _ _ (Or.inl e)
        · exact .rel _ _ (Or.inr (by simp))⟩
    (classes_le g)
  exact ⟨⟨h1, h2, fun u w f1 a1 f2 a2 n1 n2 r1 r2 =>
    joined_none h5 (h3 u w f1 a1 f2 a2 n1 n2 r1 r2)⟩, h6,
    joined_none h5 (h4 a b (Or.inr ⟨rfl, rfl⟩)), fun i j e => joined_none h5 (h4 i j (Or.inl e))⟩

/-- Nothing has been merged yet. -/
def Fresh (g : EGraph) : Prop := ∀ x, g.uf.rep x = x

theorem usesOf_append {g : EGraph} {i u : Nat} (h : u ∈ g.usesOf i) : u ∈ (g.uses ++ [[]]).getD i [] := by
  unfold EGraph.usesOf at h
  simp only [List.getD_eq_getElem?_getD] at h ⊢
  by_cases hi : i < g.uses.length
  · rw [List.getElem?_append_left hi]; exact h
  · rw [List.getElem?_eq_none (by omega)] at h; simp at h

/-- Adding keeps the closure when the node is there already, is an atom, or nothing has been merged. -/
theorem add_closed {g : EGraph} (h : Closed' g) {node : ENode} (hk : ∀ k ∈ kids node, k < g.nodes.length)
    (hn : kids node = [] ∨ node ∈ g.nodes ∨ Fresh g) : Closed' (g.add node).2 := by
  have hg := (add_grown h.wf hk).1
  cases e : g.lookup node with
  | some i => unfold EGraph.add; rw [e]; exact h
  | none =>
    have hrep := hg.rep
    refine ⟨hg.wf, ?_, ?_⟩
    · intro u f a hu
      rw [hrep, hrep]
      unfold EGraph.add at hu ⊢
      rw [e] at hu ⊢
      simp only at hu ⊢
      unfold EGraph.usesOf
      simp only
      by_cases hlt : u < g.nodes.length
      · rw [List.getElem?_append_left hlt] at hu
        have := h.use u f a hu
        exact ⟨register_mem (usesOf_append this.1), register_mem (usesOf_append this.2)⟩
      · have hl := (List.getElem?_eq_some_iff.1 hu).1
        simp at hl
        have : u = g.nodes.length := by omega
        subst this
        simp at hu
        subst hu
        have hf : f < g.nodes.length := hk f (by simp [kids])
        have ha : a < g.nodes.length := hk a (by simp [kids])
        rcases hn with hn | hn | hn
        · simp [kids] at hn
        · exact absurd hn (lookup_none e)
        · rw [hn, hn]
          exact register_kid (by simp [h.wf.ulen]; omega) (by simp [h.wf.ulen]; omega)
    · intro u w f1 a1 f2 a2 n1 n2 r1 r2
      rw [hrep, hrep] at r1 r2 ⊢
      have hwf := hg.wf
      have hnodes : (g.add node).2.nodes = g.nodes ++ [node] := by unfold EGraph.add; rw [e]
      rw [hnodes] at n1 n2
      rcases hn with hn | hn | hn
      · have old : ∀ {u f a : Nat}, (g.nodes ++ [node])[u]? = some (.app f a) → g.nodes[u]? = some (.app f a) := by
          intro u f a hu
          by_cases hlt : u < g.nodes.length
          · rw [List.getElem?_append_left hlt] at hu; exact hu
          · have hl := (List.getElem?_eq_some_iff.1 hu).1
            simp at hl
            have : u = g.nodes.length := by omega
            subst this
            simp at hu
            subst hu
            simp [kids] at hn
        exact h.cong u w f1 a1 f2 a2 (old n1) (old n2) r1 r2
      · exact absurd hn (lookup_none e)
      · rw [hn, hn] at r1 r2
        subst r1; subst r2
        rw [← hnodes] at n1 n2
        rw [index_unique hwf.nodup n1 n2]

/-- Reading keeps the closure when every application of the term has a node already, or nothing has
been merged. -/
theorem reify_closed {t : Term} {g g' : EGraph} {i : Nat} (h : Closed' g)
    (hp : Fresh g ∨ ∀ f x, Part (sApp f x) t → ∃ k, Stands g.nodes k (sApp f x))
    (hr : ccReify t g = some (i, g')) : Closed' g' := by
  have hs := simple_of_reify t hr
  induction hs generalizing g g' i with
  | lit n =>
    rw [ccReify_sLit] at hr
    have := add_closed h (node := .lit n) (by simp [kids]) (Or.inl rfl)
    simp only [Option.some.injEq] at hr
    rw [hr] at this; exact this
  | var n =>
    rw [ccReify_sVar] at hr
    have := add_closed h (node := .var n) (by simp [kids]) (Or.inl rfl)
    simp only [Option.some.injEq] at hr
    rw [hr] at this; exact this
  | name n =>
    rw [ccReify_sName] at hr
    have := add_closed h (node := .name n) (by simp [kids]) (Or.inl rfl)
    simp only [Option.some.injEq] at hr
    rw [hr] at this; exact this
  | @app f x _ _ i1 i2 =>
    obtain ⟨i, g1, j, g2, h1, h2, h3⟩ := ccReify_sApp.1 hr
    obtain ⟨k1, s1⟩ := reify_grown h.wf h1
    obtain ⟨k2, s2⟩ := reify_grown k1.wf h2
    have s1' := k2.stands s1
    have c1 : Closed' g1 := i1 h (hp.imp id fun hp f' x' hh => hp f' x' (.fn hh)) h1
    have c2 : Closed' g2 := by
      refine i2 c1 ?_ h2
      rcases hp with hp | hp
      · exact Or.inl fun x => by rw [k1.rep]; exact hp x
      · refine Or.inr fun f' x' hh => ?_
        obtain ⟨k, hk⟩ := hp f' x' (.arg hh)
        exact ⟨k, k1.stands hk⟩
    have := add_closed c2 (node := .app i j) (by
      intro k hk
      simp only [kids, List.mem_cons, List.not_mem_nil, or_false] at hk
      rcases hk with rfl | rfl
      · exact s1'.lt
      · exact s2.lt) (by
      rcases hp with hp | hp
      · exact Or.inr (Or.inr fun x => by rw [k2.rep, k1.rep]; exact hp x)
      · right; left
        obtain ⟨k, hk⟩ := hp f x .here
        have hk' := k2.stands (k1.stands hk)
        generalize ht : sApp f x = t at hk'
        cases hk' with
        | app e q1 q2 =>
          obtain ⟨rfl, rfl⟩ := sApp_inj ht
          have := q1.inj c2.wf.nodup s1'
          subst this
          have := q2.inj c2.wf.nodup s2
          subst this
          exact List.mem_of_getElem? e
        | lit => simp [sLit, sApp] at ht
        | var => simp [sVar, sApp] at ht
        | name => simp [sName, sApp] at ht)
    rw [← h3] at this
    exact this

theorem part_stands {nodes : List ENode} {t s : Term} (h : Part s t) {i : Nat} (k : Stands nodes i t) :
    ∃ j, Stands nodes j s := by
  induction h generalizing i with
  | here => exact ⟨i, k⟩
  | @fn f x _ ih =>
    generalize ht : sApp f x = t at k
    cases k with
    | app e q1 q2 => obtain ⟨rfl, rfl⟩ := sApp_inj ht; exact ih q1
    | lit => simp [sLit, sApp] at ht
    | var => simp [sVar, sApp] at ht
    | name => simp [sName, sApp] at ht
  | @arg f x _ ih =>
    generalize ht : sApp f x = t at k
    cases k with
    | app e q1 q2 => obtain ⟨rfl, rfl⟩ := sApp_inj ht; exact ih q2
    | lit => simp [sLit, sApp] at ht
    | var => simp [sVar, sApp] at ht
    | name => simp [sName, sApp] at ht

/-- The sides are nodes of one class. -/
def Holds' (g : EGraph) (e : Term × Term) : Prop :=
  ∃ i j, Stands g.nodes i e.1 ∧ Stands g.nodes j e.2 ∧ g.uf.rep i = g.uf.rep j

theorem merge_holds {g : EGraph} (h : Closed' g) {l r : Term} {i j : Nat} (s1 : Stands g.nodes i l)
    (s2 : Stands g.nodes j r) : Closed' (g.merge i j) ∧ Holds' (g.merge i j) (l, r) ∧
      (∀ e, Holds' g e → Holds' (g.merge i j) e) ∧ (g.merge i j).nodes = g.nodes := by
  obtain ⟨m1, m2, m3, m4⟩ := merge_closed h s1.lt s2.lt
  refine ⟨m1, ⟨i, j, by rw [m2]; exact s1, by rw [m2]; exact s2, m3⟩, ?_, m2⟩
  rintro e ⟨x, y, h1, h2, h3⟩
  exact ⟨x, y, by rw [m2]; exact h1, by rw [m2]; exact h2, m4 _ _ h3⟩

theorem grown_holds {g g' : EGraph} (h : Grown g g') {e : Term × Term} (k : Holds' g e) : Holds' g' e := by
  obtain ⟨x, y, h1, h2, h3⟩ := k
  exact ⟨x, y, h.stands h1, h.stands h2, by rw [h.rep, h.rep]; exact h3⟩

/-- Asserting equations whose applications have nodes already. -/
theorem assertAll_closed {hs : List (Term × Term)} {g : EGraph} (h : Closed' g)
    (hsimple : ∀ e ∈ hs, Simple e.1 ∧ Simple e.2)
    (hp : ∀ e ∈ hs, ∀ f x, Part (sApp f x) e.1 ∨ Part (sApp f x) e.2 → ∃ k, Stands g.nodes k (sApp f x)) :
    ∃ g', assertAll hs g = some g' ∧ Closed' g' ∧ (∀ e ∈ hs, Holds' g' e) ∧
      (∀ e, Holds' g e → Holds' g' e) ∧ ∃ ext, g'.nodes = g.nodes ++ ext := by
  induction hs generalizing g with
  | nil => exact ⟨g, rfl, h, by simp, fun _ h => h, [], by simp⟩
  | cons e hs ih =>
    obtain ⟨l, r⟩ := e
    obtain ⟨hl, hr⟩ := hsimple (l, r) List.mem_cons_self
    obtain ⟨⟨i, g1⟩, h1⟩ := reify_simple hl g
    obtain ⟨⟨j, g2⟩, h2⟩ := reify_simple hr g1
    obtain ⟨k1, s1⟩ := reify_grown h.wf h1
    obtain ⟨k2, s2⟩ := reify_grown k1.wf h2
    have s1' := k2.stands s1
    have c1 : Closed' g1 := reify_closed h
      (Or.inr fun f x hh => hp (l, r) List.mem_cons_self f x (Or.inl hh)) h1
    have c2 : Closed' g2 := by
      refine reify_closed c1 (Or.inr fun f x hh => ?_) h2
      obtain ⟨k, hk⟩ := hp (l, r) List.mem_cons_self f x (Or.inr hh)
      exact ⟨k, k1.stands hk⟩
    obtain ⟨m1, m2, m3, m4⟩ := merge_holds c2 s1' s2
    obtain ⟨g', a1, a2, a3, a4, ext, a5⟩ := ih m1 (fun e he => hsimple e (List.mem_cons_of_mem _ he)) (by
      intro e he f x hh
      obtain ⟨k, hk⟩ := hp e (List.mem_cons_of_mem _ he) f x hh
      exact ⟨k, by rw [m4]; exact k2.stands (k1.stands hk)⟩)
    obtain ⟨x1, y1⟩ := k1.nodes
    obtain ⟨x2, y2⟩ := k2.nodes
    refine ⟨g', ?_, a2, ?_, ?_, x1 ++ x2 ++ ext, by rw [a5, m4, y2, y1]; simp⟩
    · rw [assertAll, h1]; simp only; rw [h2]; exact a1
    · intro e he
      rcases List.mem_cons.1 he with rfl | he
      · exact a4 _ m2
      · exact a3 e he
    · intro e he
      exact a4 e (m3 e (grown_holds k2 (grown_holds k1 he)))

/-! ### The structure of classes -/

open Classical in
/-- The classes of a closed graph, with one more element for what has no node. -/
noncomputable def classStructure (g : EGraph) : AppStructure (Option Nat) where
  lit n := (g.lookup (.lit n)).map g.uf.rep
  var n := (g.lookup (.var n)).map g.uf.rep
  name s := (g.lookup (.name s)).map g.uf.rep
  app x y :=
    if h : ∃ u f a, g.nodes[u]? = some (.app f a) ∧ x = some (g.uf.rep f) ∧ y = some (g.uf.rep a) then
      some (g.uf.rep (Classical.choose h))
    else none

theorem class_value {g : EGraph} (h : Closed' g) {i : Nat} {t : Term} (k : Stands g.nodes i t) :
    Value (classStructure g) t (some (g.uf.rep i)) := by
  induction k with
  | @lit i n e =>
    have : (classStructure g).lit n = some (g.uf.rep i) := by
      simp [classStructure, lookup_of_mem h.wf e]
    rw [← this]; exact .lit n
  | @var i n e =>
    have : (classStructure g).var n = some (g.uf.rep i) := by
      simp [classStructure, lookup_of_mem h.wf e]
    rw [← this]; exact .var n
  | @name i n e =>
    have : (classStructure g).name n = some (g.uf.rep i) := by
      simp [classStructure, lookup_of_mem h.wf e]
    rw [← this]; exact .name n
  | @app i f a t u e _ _ i1 i2 =>
    have hex : ∃ (u f' a' : Nat), g.nodes[u]? = some (.app f' a') ∧ some (g.uf.rep f) = some (g.uf.rep f') ∧
        some (g.uf.rep a) = some (g.uf.rep a') := ⟨i, f, a, e, rfl, rfl⟩
    have : (classStructure g).app (some (g.uf.rep f)) (some (g.uf.rep a)) = some (g.uf.rep i) := by
      unfold classStructure
      simp only
      rw [dif_pos hex]
      obtain ⟨f', a', e', r1, r2⟩ := Classical.choose_spec hex
      exact congrArg some (h.cong i _ f a f' a' e e' (Option.some.inj r1) (Option.some.inj r2)).symm
    rw [← this]; exact .app i1 i2

theorem part_of_mem {nodes : List ENode} {i : Nat} {t : Term} (k : Stands nodes i t) :
    ∀ f x, Part (sApp f x) t → ∃ j, Stands nodes j (sApp f x) := fun _ _ h => part_stands h k

/-- Completeness, when every application in a later hypothesis occurs in the conclusion or in the first
hypothesis. -/
theorem ccAccepts_complete {hs : List (Term × Term)} {l r : Term}
    (hl : Simple l) (hr : Simple r) (hsimple : ∀ e ∈ hs, Simple e.1 ∧ Simple e.2)
    (hearly : ∀ e ∈ hs.tail, ∀ f x, Part (sApp f x) e.1 ∨ Part (sApp f x) e.2 →
      Part (sApp f x) l ∨ Part (sApp f x) r ∨
        ∃ e0, hs.head? = some e0 ∧ (Part (sApp f x) e0.1 ∨ Part (sApp f x) e0.2))
    (hvalid : ∀ (α : Type) (A : AppStructure α), (∀ e ∈ hs, SameValue A e.1 e.2) → SameValue A l r) :
    ccAccepts (equationGoal hs (l, r)) = true := by
  have fresh0 : Fresh EGraph.new := fun x => rep_out new_valid (by simp [UF.len, UF.new])
  have c0 : Closed' EGraph.new :=
    ⟨new_wf, by intro u f a h; simp [EGraph.new] at h, by intro u w f1 a1 f2 a2 h; simp [EGraph.new] at h⟩
  obtain ⟨⟨i, g1⟩, h1⟩ := reify_simple hl EGraph.new
  obtain ⟨⟨j, g2⟩, h2⟩ := reify_simple hr g1
  obtain ⟨k1, s1⟩ := reify_grown new_wf h1
  obtain ⟨k2, s2⟩ := reify_grown k1.wf h2
  have s1' := k2.stands s1
  have c1 := reify_closed c0 (Or.inl fresh0) h1
  have fresh1 : Fresh g1 := fun x => by rw [k1.rep]; exact fresh0 x
  have c2 := reify_closed c1 (Or.inl fresh1) h2
  have fresh2 : Fresh g2 := fun x => by rw [k2.rep]; exact fresh1 x
  have finish : ∀ g', assertAll hs g2 = some g' → Closed' g' → (∀ e ∈ hs, Holds' g' e) →
      (∃ ext, g'.nodes = g2.nodes ++ ext) → ccAccepts (equationGoal hs (l, r)) = true := by
    rintro g' a1 a2 a3 ⟨ext, a4⟩
    unfold ccAccepts
    rw [ccDecompose_equationGoal, ccEquality_sBin (Or.inl rfl)]
    simp only
    rw [h1]; simp only
    rw [h2]; simp only
    rw [a1]
    simp only [ccFinish, EGraph.equivalent, decide_eq_true_eq]
    have v1 := class_value a2 (i := i) (t := l) (by rw [a4]; exact s1'.mono ext)
    have v2 := class_value a2 (i := j) (t := r) (by rw [a4]; exact s2.mono ext)
    have := hvalid _ (classStructure g') (by
      intro e he z
      obtain ⟨x, y, q1, q2, q3⟩ := a3 e he
      have w1 := class_value a2 q1
      have w2 := class_value a2 q2
      rw [q3] at w1
      exact ⟨fun hz => by rw [hz.unique w1]; exact w2, fun hz => by rw [hz.unique w2]; exact w1⟩)
    have := ((this _).1 v1).unique v2
    simpa using this
  cases hs with
  | nil => exact finish g2 rfl c2 (by simp) ⟨[], by simp⟩
  | cons e0 hs =>
    obtain ⟨l0, r0⟩ := e0
    obtain ⟨hl0, hr0⟩ := hsimple (l0, r0) List.mem_cons_self
    obtain ⟨⟨i0, g3⟩, h3⟩ := reify_simple hl0 g2
    obtain ⟨⟨j0, g4⟩, h4⟩ := reify_simple hr0 g3
    obtain ⟨k3, s3⟩ := reify_grown k2.wf h3
    obtain ⟨k4, s4⟩ := reify_grown k3.wf h4
    have s3' := k4.stands s3
    have c3 := reify_closed c2 (Or.inl fresh2) h3
    have c4 := reify_closed c3 (Or.inl (fun x => by rw [k3.rep]; exact fresh2 x)) h4
    obtain ⟨m1, m2, m3, m4⟩ := merge_holds c4 s3' s4
    obtain ⟨g', a1, a2, a3, a4, ext, a5⟩ := assertAll_closed m1
      (fun e he => hsimple e (List.mem_cons_of_mem _ he)) (by
        intro e he f x hh
        rw [m4]
        rcases hearly e he f x hh with hh | hh | ⟨e', he', hh⟩
        · exact part_stands hh (k4.stands (k3.stands s1'))
        · exact part_stands hh (k4.stands (k3.stands s2))
        · simp only [List.head?_cons, Option.some.injEq] at he'
          subst he'
          rcases hh with hh | hh
          · exact part_stands hh s3'
          · exact part_stands hh s4)
    obtain ⟨x1, y1⟩ := k3.nodes
    obtain ⟨x2, y2⟩ := k4.nodes
    refine finish g' ?_ a2 ?_ ⟨x1 ++ x2 ++ ext, by rw [a5, m4, y2, y1]; simp⟩
    · rw [assertAll, h3]; simp only; rw [h4]; exact a1
    · intro e he
      rcases List.mem_cons.1 he with rfl | he
      · exact a4 _ m2
      · exact a3 e he

end Verif.Kernel
