import Verif.Kernel.Cc
import Verif.Kernel.ReifyLemmas
import Verif.Solve.UnionFindLemmas
import Mathlib.Data.Finset.Card
import Mathlib.Data.Finset.Range
/-! # Lemmas about congruence closure: the graph -/
namespace Verif.Kernel
open Verif.UnionFind Relation

/-- The term a node stands for. -/
inductive Stands (nodes : List ENode) : Nat → Term → Prop
  | lit {i : Nat} {n : Int} : nodes[i]? = some (.lit n) → Stands nodes i (sLit n)
  | var {i : Nat} {n : Int} : nodes[i]? = some (.var n) → Stands nodes i (sVar n)
  | name {i : Nat} {s : String} : nodes[i]? = some (.name s) → Stands nodes i (sName s)
  | app {i f a : Nat} {t u : Term} : nodes[i]? = some (.app f a) → Stands nodes f t → Stands nodes a u →
      Stands nodes i (sApp t u)

/-- What follows from equations by congruence. -/
inductive Follows (E : Term → Term → Prop) : Term → Term → Prop
  | base {t u : Term} : E t u → Follows E t u
  | refl (t : Term) : Follows E t t
  | symm {t u : Term} : Follows E t u → Follows E u t
  | trans {t u v : Term} : Follows E t u → Follows E u v → Follows E t v
  | congr {f g x y : Term} : Follows E f g → Follows E x y → Follows E (sApp f x) (sApp g y)

theorem Follows.mono {E F : Term → Term → Prop} (h : ∀ t u, E t u → F t u) {t u : Term}
    (k : Follows E t u) : Follows F t u := by
  induction k with
  | base e => exact .base (h _ _ e)
  | refl => exact .refl _
  | symm _ ih => exact .symm ih
  | trans _ _ i1 i2 => exact .trans i1 i2
  | congr _ _ i1 i2 => exact .congr i1 i2

theorem Stands.unique {nodes : List ENode} {i : Nat} {t u : Term} (h : Stands nodes i t)
    (k : Stands nodes i u) : t = u := by
  induction h generalizing u with
  | lit e => cases k <;> simp_all
  | var e => cases k <;> simp_all
  | name e => cases k <;> simp_all
  | app e _ _ i1 i2 =>
    cases k with
    | app e' h1 h2 =>
      rw [e] at e'; cases e'
      rw [i1 h1, i2 h2]
    | lit e' => rw [e] at e'; cases e'
    | var e' => rw [e] at e'; cases e'
    | name e' => rw [e] at e'; cases e'

theorem getElem?_append_of_some {α : Type} {l m : List α} {i : Nat} {x : α} (h : l[i]? = some x) :
    (l ++ m)[i]? = some x := by
  have := (List.getElem?_eq_some_iff.1 h).1
  rw [List.getElem?_append_left this]; exact h

theorem Stands.mono {nodes : List ENode} (ext : List ENode) {i : Nat} {t : Term} (h : Stands nodes i t) :
    Stands (nodes ++ ext) i t := by
  induction h with
  | lit e => exact .lit (getElem?_append_of_some e)
  | var e => exact .var (getElem?_append_of_some e)
  | name e => exact .name (getElem?_append_of_some e)
  | app e _ _ i1 i2 => exact .app (getElem?_append_of_some e) i1 i2

theorem Stands.lt {nodes : List ENode} {i : Nat} {t : Term} (h : Stands nodes i t) : i < nodes.length := by
  cases h <;> rename_i e <;> first
    | exact (List.getElem?_eq_some_iff.1 e).1
    | (rename_i e _ _; exact (List.getElem?_eq_some_iff.1 e).1)
    | (rename_i e _; exact (List.getElem?_eq_some_iff.1 e).1)

/-- The graph invariant. -/
structure WF (g : EGraph) : Prop where
  valid : Valid g.uf
  len : g.uf.len = g.nodes.length
  ulen : g.uses.length = g.nodes.length
  nodup : g.nodes.Nodup
  child : ∀ (i f a : Nat), g.nodes[i]? = some (.app f a) → f < i ∧ a < i
  urange : ∀ i u, u ∈ g.usesOf i → u < g.nodes.length

theorem WF.stands {g : EGraph} (h : WF g) : ∀ i, i < g.nodes.length → ∃ t, Stands g.nodes i t := by
  intro i
  induction i using Nat.strongRecOn with
  | ind i ih =>
    intro hi
    have e : g.nodes[i]? = some g.nodes[i] := List.getElem?_eq_getElem hi
    cases hn : g.nodes[i] with
    | lit n => exact ⟨_, .lit (by rw [e, hn])⟩
    | var n => exact ⟨_, .var (by rw [e, hn])⟩
    | name n => exact ⟨_, .name (by rw [e, hn])⟩
    | app f a =>
      rw [hn] at e
      obtain ⟨h1, h2⟩ := h.child i f a e
      obtain ⟨t, ht⟩ := ih f h1 (by omega)
      obtain ⟨u, hu⟩ := ih a h2 (by omega)
      exact ⟨_, .app e ht hu⟩

theorem index_unique {α : Type} {l : List α} (h : l.Nodup) {i j : Nat} {x : α} (hi : l[i]? = some x)
    (hj : l[j]? = some x) : i = j := by
  obtain ⟨h1, e1⟩ := List.getElem?_eq_some_iff.1 hi
  obtain ⟨h2, e2⟩ := List.getElem?_eq_some_iff.1 hj
  exact (List.Nodup.getElem_inj_iff h).1 (e1.trans e2.symm)

theorem sApp_inj {f x g y : Term} (h : sApp f x = sApp g y) : f = g ∧ x = y := by
  unfold sApp at h; injection h with h1 h2; injection h1 with h3 h4; exact ⟨h4, h2⟩

theorem Stands.inj {nodes : List ENode} (hn : nodes.Nodup) {i j : Nat} {t : Term} (h : Stands nodes i t)
    (k : Stands nodes j t) : i = j := by
  induction h generalizing j with
  | @lit i n e =>
    generalize ht : sLit n = t at k
    cases k with
    | lit e' => simp [sLit] at ht; subst ht; exact index_unique hn e e'
    | var => simp [sLit, sVar] at ht
    | name => simp [sLit, sName] at ht
    | app => simp [sLit, sApp] at ht
  | @var i n e =>
    generalize ht : sVar n = t at k
    cases k with
    | var e' => simp [sVar] at ht; subst ht; exact index_unique hn e e'
    | lit => simp [sLit, sVar] at ht
    | name => simp [sVar, sName] at ht
    | app => simp [sVar, sApp] at ht
  | @name i n e =>
    generalize ht : sName n = t at k
    cases k with
    | name e' => simp [sName] at ht; subst ht; exact index_unique hn e e'
    | lit => simp [sLit, sName] at ht
    | var => simp [sVar, sName] at ht
    | app => simp [sName, sApp] at ht
  | @app i f a t u e _ _ i1 i2 =>
    generalize ht : sApp t u = w at k
    cases k with
    | app e' h1 h2 =>
      obtain ⟨rfl, rfl⟩ := sApp_inj ht
      have := i1 h1; subst this
      have := i2 h2; subst this
      exact index_unique hn e e'
    | lit => simp [sLit, sApp] at ht
    | var => simp [sVar, sApp] at ht
    | name => simp [sName, sApp] at ht

theorem WF.restrict {g : EGraph} (h : WF g) {ext : List ENode} {i : Nat} {t : Term}
    (hi : i < g.nodes.length) (k : Stands (g.nodes ++ ext) i t) : Stands g.nodes i t := by
  obtain ⟨t', ht'⟩ := h.stands i hi
  have := (ht'.mono ext).unique k
  rw [← this]; exact ht'

theorem new_wf : WF EGraph.new :=
  ⟨new_valid, rfl, rfl, List.nodup_nil, by intro i f a h; simp [EGraph.new] at h,
    by intro i u h; simp [EGraph.usesOf, EGraph.new] at h⟩

/-! ## Adding nodes -/

theorem getD_modify {α : Type} (l : List (List α)) (i : Nat) (f : List α → List α) (j : Nat) :
    (l.modify i f).getD j [] = if i = j ∧ i < l.length then f (l.getD j []) else l.getD j [] := by
  simp only [List.getD_eq_getElem?_getD, List.getElem?_modify]
  by_cases hj : j < l.length
  · rw [List.getElem?_eq_getElem hj]
    by_cases hij : i = j
    · subst hij; simp [hj]
    · simp [hij]
  · rw [List.getElem?_eq_none (by omega)]
    by_cases hij : i = j
    · subst hij; simp [hj]
    · simp [hij]

/-- The children of a node. -/
def kids : ENode → List Nat
  | .app f a => [f, a]
  | _ => []

theorem mem_register {id : Nat} {uses : List (List Nat)} {node : ENode} {i u : Nat}
    (h : u ∈ (EGraph.register id uses node).getD i []) : u ∈ uses.getD i [] ∨ u = id := by
  cases node with
  | app f a =>
    unfold EGraph.register at h
    rw [getD_modify, getD_modify] at h
    split at h <;> split at h <;> simp at h <;> tauto
  | _ => exact Or.inl h

theorem register_mem {id : Nat} {uses : List (List Nat)} {node : ENode} {i u : Nat}
    (h : u ∈ uses.getD i []) : u ∈ (EGraph.register id uses node).getD i [] := by
  cases node with
  | app f a =>
    unfold EGraph.register
    rw [getD_modify, getD_modify]
    split <;> split <;> simp [-List.getD_eq_getElem?_getD, h]
  | _ => exact h

theorem register_kid {id : Nat} {uses : List (List Nat)} {f a : Nat} (hf : f < uses.length)
    (ha : a < uses.length) :
    id ∈ (EGraph.register id uses (.app f a)).getD f [] ∧
      id ∈ (EGraph.register id uses (.app f a)).getD a [] := by
  unfold EGraph.register
  constructor
  · rw [getD_modify, getD_modify (i := f) (j := f), if_pos (⟨rfl, hf⟩ : f = f ∧ f < uses.length)]
    split <;> simp
  · rw [getD_modify, List.length_modify, if_pos ⟨rfl, ha⟩]
    simp

theorem register_length (id : Nat) (uses : List (List Nat)) (node : ENode) :
    (EGraph.register id uses node).length = uses.length := by
  cases node <;> simp [EGraph.register]

theorem lookup_some {g : EGraph} {node : ENode} {i : Nat} (h : g.lookup node = some i) :
    g.nodes[i]? = some node := by
  unfold EGraph.lookup at h
  rw [List.findIdx?_eq_some_iff_getElem] at h
  obtain ⟨hi, hp, _⟩ := h
  rw [List.getElem?_eq_getElem hi]
  simpa using hp

theorem lookup_none {g : EGraph} {node : ENode} (h : g.lookup node = none) : node ∉ g.nodes := by
  unfold EGraph.lookup at h
  rw [List.findIdx?_eq_none_iff] at h
  intro hm
  have := h _ hm
  simp at this

theorem lookup_of_mem {g : EGraph} (h : WF g) {node : ENode} {i : Nat} (hi : g.nodes[i]? = some node) :
    g.lookup node = some i := by
  cases e : g.lookup node with
  | none => exact absurd (List.mem_of_getElem? hi) (lookup_none e)
  | some j => rw [index_unique h.nodup (lookup_some e) hi]

/-- What adding does. -/
structure Grown (g g' : EGraph) : Prop where
  wf : WF g'
  nodes : ∃ ext, g'.nodes = g.nodes ++ ext
  rep : ∀ x, g'.uf.rep x = g.uf.rep x

theorem Grown.refl {g : EGraph} (h : WF g) : Grown g g := ⟨h, ⟨[], by simp⟩, fun _ => rfl⟩

theorem Grown.trans {g g' g'' : EGraph} (h : Grown g g') (k : Grown g' g'') : Grown g g'' := by
  obtain ⟨e1, h1⟩ := h.nodes
  obtain ⟨e2, h2⟩ := k.nodes
  exact ⟨k.wf, ⟨e1 ++ e2, by rw [h2, h1, List.append_assoc]⟩, fun x => (k.rep x).trans (h.rep x)⟩

theorem Grown.stands {g g' : EGraph} (h : Grown g g') {i : Nat} {t : Term} (k : Stands g.nodes i t) :
    Stands g'.nodes i t := by
  obtain ⟨e, h1⟩ := h.nodes
  rw [h1]; exact k.mono e

theorem add_grown {g : EGraph} (h : WF g) {node : ENode} (hk : ∀ k ∈ kids node, k < g.nodes.length) :
    Grown g (g.add node).2 ∧ (g.add node).2.nodes[(g.add node).1]? = some node := by
  unfold EGraph.add
  cases e : g.lookup node with
  | some i => exact ⟨Grown.refl h, lookup_some e⟩
  | none =>
    have hm := makeSet_valid h.valid
    refine ⟨⟨⟨hm.1, ?_, ?_, ?_, ?_, ?_⟩, ⟨[node], rfl⟩, hm.2⟩, ?_⟩
    · rw [makeSet_len, h.len]; simp
    · rw [register_length]; simp [h.ulen]
    · rw [List.nodup_append]
      refine ⟨h.nodup, List.nodup_singleton _, ?_⟩
      intro a ha b hb
      rw [List.mem_singleton] at hb
      subst hb
      intro hab
      subst hab
      exact lookup_none e ha
    · intro i f a hi
      simp only at hi
      by_cases hlt : i < g.nodes.length
      · rw [List.getElem?_append_left hlt] at hi
        exact h.child i f a hi
      · have hl := (List.getElem?_eq_some_iff.1 hi).1
        simp at hl
        have : i = g.nodes.length := by omega
        subst this
        simp at hi
        subst hi
        exact ⟨hk f (by simp [kids]), hk a (by simp [kids])⟩
    · intro i u hu
      unfold EGraph.usesOf at hu
      simp only at hu
      simp only [List.length_append, List.length_singleton]
      rcases mem_register hu with hu | hu
      · have : u ∈ g.usesOf i := by
          unfold EGraph.usesOf
          simp only [List.getD_eq_getElem?_getD] at hu ⊢
          rcases Nat.lt_trichotomy i g.uses.length with hl | hl | hl
          · rw [List.getElem?_append_left hl] at hu; exact hu
          · subst hl; simp at hu
          · rw [List.getElem?_eq_none (by simp; omega)] at hu; simp at hu
        have := h.urange i u this
        omega
      · omega
    · simp

theorem add_stands {g : EGraph} (h : WF g) {node : ENode} (hk : ∀ k ∈ kids node, k < g.nodes.length) :
    Grown g (g.add node).2 ∧ (g.add node).2.nodes[(g.add node).1]? = some node := add_grown h hk

/-! ## Reading terms -/

theorem ccReify_sLit (n : Int) (g : EGraph) : ccReify (sLit n) g = some (g.add (.lit n)) := by
  simp [ccReify, sLit, extractSlit]

theorem ccReify_sVar (n : Int) (g : EGraph) : ccReify (sVar n) g = some (g.add (.var n)) := by
  simp [ccReify, sVar, extractSlit, extractSvar]

theorem ccReify_sName (s : String) (g : EGraph) : ccReify (sName s) g = some (g.add (.name s)) := by
  simp [ccReify, sName, extractSlit, extractSvar, extractSname]

/-- What reading an application does. -/
theorem ccReify_sApp {f a : Term} {g : EGraph} {r : Nat × EGraph} :
    ccReify (sApp f a) g = some r ↔ ∃ i g1 j g2, ccReify f g = some (i, g1) ∧
      ccReify a g1 = some (j, g2) ∧ r = g2.add (.app i j) := by
  rw [sApp, ccReify, if_pos rfl]
  cases e : ccReify f g with
  | none => simp
  | some p =>
    obtain ⟨i, g1⟩ := p
    cases e2 : ccReify a g1 with
    | none =>
      simp only [Option.some.injEq, Prod.mk.injEq]
      constructor
      · intro h; simp [e2] at h
      · rintro ⟨_, _, j, g2, ⟨rfl, rfl⟩, h, _⟩; rw [e2] at h; cases h
    | some q =>
      obtain ⟨j, g2⟩ := q
      constructor
      · intro h
        simp only [e2, Option.some.injEq] at h
        exact ⟨i, g1, j, g2, rfl, e2, h.symm⟩
      · rintro ⟨_, _, j', g2', h1, h2, h3⟩
        cases h1
        rw [e2] at h2; cases h2
        simp only [e2, h3]

/-- A term that can be read is one of the embedding. -/
theorem simple_of_reify : ∀ (t : Term) {g : EGraph} {r : Nat × EGraph}, ccReify t g = some r → Simple t
  | .global s, _, _, h => by simp [ccReify] at h
  | .lit l, _, _, h => by simp [ccReify] at h
  | .other n, _, _, h => by simp [ccReify] at h
  | .app (.global c) x, g, r, h => by
    rw [ccReify] at h
    split at h
    · rename_i n e; rw [extractSlit_some e]; exact .lit n
    · split at h
      · rename_i n e; rw [extractSvar_some e]; exact .var n
      · split at h
        · rename_i s e; rw [extractSname_some e]; exact .name s
        · cases h
  | .app (.app (.global c) f) a, g, r, h => by
    have hc : c = "SApp" := by
      rw [ccReify] at h
      split at h
      · rename_i e; exact e
      · cases h
    subst hc
    obtain ⟨i, g1, j, g2, h1, h2, _⟩ := ccReify_sApp.1 h
    exact .app (simple_of_reify f h1) (simple_of_reify a h2)
  | .app (.lit _) _, _, _, h => by simp [ccReify] at h
  | .app (.other _) _, _, _, h => by simp [ccReify] at h
  | .app (.app (.lit _) _) _, _, _, h => by simp [ccReify] at h
  | .app (.app (.other _) _) _, _, _, h => by simp [ccReify] at h
  | .app (.app (.app _ _) _) _, _, _, h => by simp [ccReify] at h

theorem reify_simple {t : Term} (h : Simple t) (g : EGraph) : ∃ r, ccReify t g = some r := by
  induction h generalizing g with
  | lit n => exact ⟨_, ccReify_sLit n g⟩
  | var n => exact ⟨_, ccReify_sVar n g⟩
  | name n => exact ⟨_, ccReify_sName n g⟩
  | app _ _ i1 i2 =>
    obtain ⟨⟨i, g1⟩, h1⟩ := i1 g
    obtain ⟨⟨j, g2⟩, h2⟩ := i2 g1
    exact ⟨_, ccReify_sApp.2 ⟨i, g1, j, g2, h1, h2, rfl⟩⟩

theorem reify_grown {t : Term} {g g' : EGraph} {i : Nat} (h : WF g) (hr : ccReify t g = some (i, g')) :
    Grown g g' ∧ Stands g'.nodes i t := by
  have hs := simple_of_reify t hr
  induction hs generalizing g g' i with
  | lit n =>
    rw [ccReify_sLit] at hr
    obtain ⟨h1, h2⟩ := add_grown h (node := .lit n) (by simp [kids])
    simp only [Option.some.injEq] at hr
    rw [hr] at h1 h2
    exact ⟨h1, .lit h2⟩
  | var n =>
    rw [ccReify_sVar] at hr
    obtain ⟨h1, h2⟩ := add_grown h (node := .var n) (by simp [kids])
    simp only [Option.some.injEq] at hr
    rw [hr] at h1 h2
    exact ⟨h1, .var h2⟩
  | name n =>
    rw [ccReify_sName] at hr
    obtain ⟨h1, h2⟩ := add_grown h (node := .name n) (by simp [kids])
    simp only [Option.some.injEq] at hr
    rw [hr] at h1 h2
    exact ⟨h1, .name h2⟩
  | app _ _ i1 i2 =>
    obtain ⟨i, g1, j, g2, h1, h2, h3⟩ := ccReify_sApp.1 hr
    obtain ⟨k1, s1⟩ := i1 h h1
    obtain ⟨k2, s2⟩ := i2 k1.wf h2
    have s1' := k2.stands s1
    obtain ⟨k3, e⟩ := add_grown k2.wf (node := .app i j) (by
      intro k hk
      simp only [kids, List.mem_cons, List.not_mem_nil, or_false] at hk
      rcases hk with rfl | rfl
      · exact s1'.lt
      · exact s2.lt)
    rw [← h3] at k3 e
    exact ⟨(k1.trans k2).trans k3, .app e (k3.stands s1') (k3.stands s2)⟩

end Verif.Kernel
