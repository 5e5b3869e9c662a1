import Verif.Solve.UnionFind
import Mathlib.Data.List.Basic
/-! # Lemmas about disjoint sets -/
namespace Verif.UnionFind
open Relation

/-- The state invariant: ranks grow along the parent pointers. -/
structure Valid (s : UF) : Prop where
  len : s.parent.length = s.rank.length
  range : ∀ x, x < s.len → s.par x < s.len
  grow : ∀ x, s.par x ≠ x → s.rk x < s.rk (s.par x)

/-- `r` is the root above `x`. -/
inductive Root (s : UF) : Nat → Nat → Prop
  | here {x : Nat} : s.par x = x → Root s x x
  | up {x r : Nat} : s.par x ≠ x → Root s (s.par x) r → Root s x r

theorem Root.isRoot {s : UF} {x r : Nat} (h : Root s x r) : s.par r = r := by
  induction h with
  | here h => exact h
  | up _ _ ih => exact ih

theorem Root.unique {s : UF} {x r r' : Nat} (h : Root s x r) (h' : Root s x r') : r = r' := by
  induction h with
  | here h =>
    cases h' with
    | here => rfl
    | up h2 _ => exact absurd h h2
  | up h1 _ ih =>
    cases h' with
    | here h2 => exact absurd h2 h1
    | up _ h2 => exact ih h2

theorem Root.rank {s : UF} (hs : Valid s) {x r : Nat} (h : Root s x r) : x = r ∨ s.rk x < s.rk r := by
  induction h with
  | here => exact Or.inl rfl
  | up h1 _ ih =>
    right
    have := hs.grow _ h1
    rcases ih with e | h
    · rw [← e]; exact this
    · omega

theorem Root.lt {s : UF} (hs : Valid s) {x r : Nat} (h : Root s x r) (hx : x < s.len) : r < s.len := by
  induction h with
  | here => exact hx
  | up _ _ ih => exact ih (hs.range _ hx)

theorem le_foldr_max (l : List Nat) (x : Nat) : l.getD x 0 ≤ l.foldr max 0 := by
  induction l generalizing x with
  | nil => simp
  | cons a l ih =>
    cases x with
    | zero => simp only [List.getD_cons_zero, List.foldr_cons]; omega
    | succ x => have := ih x; simp only [List.getD_cons_succ, List.foldr_cons]; omega

theorem rk_lt_bound (s : UF) (x : Nat) : s.rk x < s.bound :=
  Nat.lt_succ_of_le (le_foldr_max _ _)

theorem par_out {s : UF} {x : Nat} (h : s.len ≤ x) : s.par x = x := by
  unfold UF.par
  rw [List.getD_eq_getElem?_getD, List.getElem?_eq_none h]; rfl

theorem repAux_root {s : UF} (hs : Valid s) : ∀ (f x : Nat), s.bound ≤ f + s.rk x →
    Root s x (repAux f s x)
  | 0, x, h => absurd (rk_lt_bound s x) (by omega)
  | f + 1, x, h => by
    rw [repAux]
    split
    · rename_i e; exact .here e
    · rename_i e
      exact .up e (repAux_root hs f _ (by have := hs.grow x e; omega))

theorem rep_root {s : UF} (hs : Valid s) (x : Nat) : Root s x (s.rep x) :=
  repAux_root hs _ x (by omega)

theorem rep_eq {s : UF} (hs : Valid s) {x r : Nat} (h : Root s x r) : s.rep x = r :=
  (rep_root hs x).unique h

theorem rep_lt {s : UF} (hs : Valid s) {x : Nat} (h : x < s.len) : s.rep x < s.len :=
  (rep_root hs x).lt hs h

theorem rep_out {s : UF} (hs : Valid s) {x : Nat} (h : s.len ≤ x) : s.rep x = x :=
  rep_eq hs (.here (par_out h))

theorem rep_rep {s : UF} (hs : Valid s) (x : Nat) : s.rep (s.rep x) = s.rep x :=
  rep_eq hs (.here (rep_root hs x).isRoot)

theorem findAux_fst (f : Nat) (s : UF) (x : Nat) : (findAux f s x).1 = repAux f s x := by
  induction f generalizing x with
  | zero => rfl
  | succ f ih =>
    rw [findAux, repAux]
    split
    · rfl
    · exact ih _

theorem par_setPar (s : UF) {x : Nat} (y z : Nat) (h : x < s.len) :
    (s.setPar x y).par z = if z = x then y else s.par z := by
  unfold UF.par UF.setPar
  simp only [List.getD_eq_getElem?_getD]
  rw [List.getElem?_set]
  split
  · rename_i e; subst e
    have h' : x < s.parent.length := h
    simp [h']
  · rename_i e
    rw [if_neg (fun h => e h.symm)]

/-- Path compression: some parents have become roots. -/
structure Compressed (s t : UF) : Prop where
  rank : t.rank = s.rank
  len : t.len = s.len
  par : ∀ y, t.par y = s.par y ∨ (s.par y ≠ y ∧ Root s y (t.par y))

theorem Compressed.refl (s : UF) : Compressed s s := ⟨rfl, rfl, fun _ => Or.inl rfl⟩

theorem Compressed.rk {s t : UF} (h : Compressed s t) (x : Nat) : t.rk x = s.rk x := by
  unfold UF.rk; rw [h.rank]

theorem Compressed.valid {s t : UF} (hs : Valid s) (h : Compressed s t) : Valid t := by
  refine ⟨?_, ?_, ?_⟩
  · have := h.len; unfold UF.len at this; rw [this, h.rank]; exact hs.len
  · intro x hx
    rw [h.len] at hx ⊢
    rcases h.par x with e | ⟨_, e⟩
    · rw [e]; exact hs.range x hx
    · exact e.lt hs hx
  · intro x hx
    rw [h.rk, h.rk]
    rcases h.par x with e | ⟨_, e⟩
    · rw [e] at hx ⊢; exact hs.grow x hx
    · rcases e.rank hs with e' | e'
      · exact absurd e'.symm hx
      · exact e'

theorem Compressed.root {s t : UF} (h : Compressed s t) {x r : Nat} (hr : Root s x r) : Root t x r := by
  have fix : ∀ r, s.par r = r → t.par r = r := by
    intro r hr
    rcases h.par r with e | ⟨e, _⟩
    · rw [e, hr]
    · exact absurd hr e
  induction hr with
  | here e => exact .here (fix _ e)
  | @up x r h1 h2 ih =>
    have hs' : Root s x r := .up h1 h2
    rcases h.par x with e | ⟨_, e⟩
    · exact .up (by rw [e]; exact h1) (by rw [e]; exact ih)
    · have := e.unique hs'
      have hr' := hs'.isRoot
      refine .up ?_ ?_
      · rw [this]; intro hx; rw [hx] at hr'; exact h1 hr'
      · rw [this]; exact .here (fix _ hr')

theorem Compressed.rep {s t : UF} (hs : Valid s) (h : Compressed s t) (x : Nat) : t.rep x = s.rep x :=
  rep_eq (h.valid hs) (h.root (rep_root hs x))

theorem findAux_compressed {s : UF} (hs : Valid s) : ∀ (f x : Nat), s.bound ≤ f + s.rk x →
    Compressed s (findAux f s x).2
  | 0, _, _ => Compressed.refl s
  | f + 1, x, h => by
    rw [findAux]
    split
    · exact Compressed.refl s
    · rename_i e
      have hf : s.bound ≤ f + s.rk (s.par x) := by have := hs.grow x e; omega
      have ih := findAux_compressed hs f _ hf
      have hx : x < s.len := by
        by_contra hx; exact e (par_out (Nat.le_of_not_lt hx))
      refine ⟨ih.rank, ?_, ?_⟩
      · simp only [compress, UF.len, UF.setPar, List.length_set]; exact ih.len
      · intro y
        simp only [compress]
        rw [par_setPar _ _ _ (by rw [ih.len]; exact hx)]
        split
        · rename_i ey; subst ey
          right
          refine ⟨e, ?_⟩
          rw [findAux_fst]
          exact .up e (repAux_root hs f _ hf)
        · exact ih.par y

theorem find_fst (s : UF) (x : Nat) : (s.find x).1 = s.rep x := findAux_fst _ _ _

theorem find_compressed {s : UF} (hs : Valid s) (x : Nat) : Compressed s (s.find x).2 :=
  findAux_compressed hs _ _ (by omega)

theorem findAux_fuel {s : UF} (hs : Valid s) : ∀ (f g x : Nat), s.bound ≤ f + s.rk x → s.bound ≤ g + s.rk x →
    findAux f s x = findAux g s x
  | 0, _, x, h, _ => absurd (rk_lt_bound s x) (by omega)
  | _ + 1, 0, x, _, h => absurd (rk_lt_bound s x) (by omega)
  | f + 1, g + 1, x, h, h' => by
    rw [findAux, findAux]
    split
    · rfl
    · rename_i e
      have := hs.grow x e
      rw [findAux_fuel hs f g _ (by omega) (by omega)]

/-- The recursion of the code: the bound on its depth is never met. -/
theorem find_unfold {s : UF} (hs : Valid s) (x : Nat) :
    s.find x = if s.par x = x then (x, s) else compress x (s.find (s.par x)) := by
  unfold UF.find
  conv_lhs => rw [UF.bound, findAux]
  split
  · rfl
  · rename_i e
    have := hs.grow x e
    have hb : s.bound = s.rank.foldr max 0 + 1 := rfl
    rw [findAux_fuel hs _ s.bound _ (by omega) (by omega)]

/-! ## Linking -/

/-- The root that stays. -/
def win (s : UF) (rx ry : Nat) : Nat := if s.rk rx < s.rk ry then ry else rx
/-- The root that goes. -/
def lose (s : UF) (rx ry : Nat) : Nat := if s.rk rx < s.rk ry then rx else ry

theorem link_eq (s : UF) (rx ry : Nat) :
    (s.link rx ry).parent = s.parent.set (lose s rx ry) (win s rx ry) := by
  unfold UF.link lose win
  split
  · rfl
  · split <;> rfl

theorem link_len (s : UF) (rx ry : Nat) : (s.link rx ry).len = s.len := by
  unfold UF.len; rw [link_eq]; simp

theorem link_par (s : UF) {rx ry : Nat} (hx : rx < s.len) (hy : ry < s.len) (z : Nat) :
    (s.link rx ry).par z = if z = lose s rx ry then win s rx ry else s.par z := by
  have : (s.link rx ry).par z = (s.setPar (lose s rx ry) (win s rx ry)).par z := by
    unfold UF.par; rw [link_eq]; rfl
  rw [this, par_setPar]
  unfold lose; split <;> assumption

theorem link_rk (s : UF) {rx ry : Nat} (z : Nat) (hx : rx < s.rank.length) :
    (s.link rx ry).rk z = if z = rx ∧ s.rk rx = s.rk ry then s.rk z + 1 else s.rk z := by
  unfold UF.link
  split
  · rw [if_neg (by omega)]; rfl
  · split
    · rw [if_neg (by omega)]; rfl
    · have : s.rk rx = s.rk ry := by omega
      simp only [this, and_true]
      unfold UF.rk UF.setPar
      simp only [List.getD_eq_getElem?_getD]
      rw [List.getElem?_set]
      split
      · rename_i e; subst e
        have h2 : (s.rank[rx]?.getD 0) = (s.rank[ry]?.getD 0) := by
          have := this; unfold UF.rk at this; simpa [List.getD_eq_getElem?_getD] using this
        simp [hx, ← h2]
      · rename_i e; rw [if_neg (fun h => e h.symm)]

theorem link_valid {s : UF} (hs : Valid s) {rx ry : Nat} (hx : rx < s.len) (hy : ry < s.len)
    (hrx : s.par rx = rx) (hry : s.par ry = ry) (hne : rx ≠ ry) : Valid (s.link rx ry) := by
  have hxr : rx < s.rank.length := by rw [← hs.len]; exact hx
  refine ⟨?_, ?_, ?_⟩
  · have := link_len s rx ry
    unfold UF.len at this
    rw [this, hs.len]
    unfold UF.link; split
    · rfl
    · split <;> simp [UF.setPar]
  · intro z hz
    rw [link_len] at hz ⊢
    rw [link_par s hx hy]
    split
    · unfold win; split <;> assumption
    · exact hs.range z hz
  · intro z hz
    rw [link_par s hx hy] at hz ⊢
    rw [link_rk s _ hxr, link_rk s _ hxr]
    by_cases e : z = lose s rx ry
    · simp only [if_pos e]
      subst e
      unfold win lose
      by_cases hlt : s.rk rx < s.rk ry
      · simp only [hlt, if_true]
        rw [if_neg (by omega), if_neg (by omega)]; exact hlt
      · simp only [hlt, if_false]
        rw [if_neg (fun h => hne h.1.symm)]
        by_cases hq : s.rk rx = s.rk ry
        · rw [if_pos ⟨trivial, hq⟩]; omega
        · rw [if_neg (fun h => hq h.2)]; omega
    · rw [if_neg e] at hz
      simp only [if_neg e]
      have h1 := hs.grow z hz
      have : z ≠ rx := fun h => hz (by rw [h]; exact hrx)
      rw [if_neg (fun h => this h.1)]
      split <;> omega

theorem link_root {s : UF} {rx ry : Nat} (hx : rx < s.len) (hy : ry < s.len)
    (hrx : s.par rx = rx) (hry : s.par ry = ry) (hne : rx ≠ ry) {z r : Nat} (h : Root s z r) :
    Root (s.link rx ry) z (if r = lose s rx ry then win s rx ry else r) := by
  have hl : s.par (lose s rx ry) = lose s rx ry := by unfold lose; split <;> assumption
  have hw : s.par (win s rx ry) = win s rx ry := by unfold win; split <;> assumption
  have hwl : win s rx ry ≠ lose s rx ry := by
    unfold win lose; split
    · exact hne.symm
    · exact hne
  induction h with
  | @here x e =>
    split
    · rename_i el; subst el
      refine .up ?_ ?_
      · rw [link_par s hx hy, if_pos rfl]; exact hwl
      · rw [link_par s hx hy, if_pos rfl]
        exact .here (by rw [link_par s hx hy, if_neg hwl]; exact hw)
    · rename_i el
      exact .here (by rw [link_par s hx hy, if_neg el]; exact e)
  | @up x r h1 h2 ih =>
    have : x ≠ lose s rx ry := fun h => h1 (by rw [h]; exact hl)
    exact .up (by rw [link_par s hx hy, if_neg this]; exact h1)
      (by rw [link_par s hx hy, if_neg this]; exact ih)

theorem link_rep {s : UF} (hs : Valid s) {rx ry : Nat} (hx : rx < s.len) (hy : ry < s.len)
    (hrx : s.par rx = rx) (hry : s.par ry = ry) (hne : rx ≠ ry) (z : Nat) :
    (s.link rx ry).rep z = if s.rep z = lose s rx ry then win s rx ry else s.rep z :=
  rep_eq (link_valid hs hx hy hrx hry hne) (link_root hx hy hrx hry hne (rep_root hs z))

/-! ## Union without compression -/

theorem unionRep_fst (s : UF) (x y : Nat) : (s.unionRep x y).1 = decide (s.rep x ≠ s.rep y) := by
  unfold UF.unionRep linkIf
  split <;> simp [*]

theorem unionRep_len (s : UF) (x y : Nat) : (s.unionRep x y).2.len = s.len := by
  unfold UF.unionRep linkIf
  split
  · rfl
  · exact link_len _ _ _

theorem unionRep_valid {s : UF} (hs : Valid s) {x y : Nat} (hx : x < s.len) (hy : y < s.len) :
    Valid (s.unionRep x y).2 := by
  unfold UF.unionRep linkIf
  split
  · exact hs
  · rename_i e
    exact link_valid hs (rep_lt hs hx) (rep_lt hs hy) (rep_root hs x).isRoot (rep_root hs y).isRoot e

/-- The classes after a union. -/
theorem unionRep_rep {s : UF} (hs : Valid s) {x y : Nat} (hx : x < s.len) (hy : y < s.len) (a b : Nat) :
    (s.unionRep x y).2.rep a = (s.unionRep x y).2.rep b ↔
      s.rep a = s.rep b ∨ (s.rep a = s.rep x ∧ s.rep b = s.rep y) ∨
        (s.rep a = s.rep y ∧ s.rep b = s.rep x) := by
  unfold UF.unionRep linkIf
  split
  · rename_i e
    constructor
    · exact Or.inl
    · rintro (h | ⟨h1, h2⟩ | ⟨h1, h2⟩)
      · exact h
      · exact h1.trans (e.trans h2.symm)
      · exact h1.trans (e.symm.trans h2.symm)
  · rename_i e
    simp only
    rw [link_rep hs (rep_lt hs hx) (rep_lt hs hy) (rep_root hs x).isRoot (rep_root hs y).isRoot e,
      link_rep hs (rep_lt hs hx) (rep_lt hs hy) (rep_root hs x).isRoot (rep_root hs y).isRoot e]
    generalize s.rep a = a
    generalize s.rep b = b
    revert e
    generalize s.rep x = x
    generalize s.rep y = y
    intro e
    unfold lose win
    split <;> (repeat' split) <;> omega

/-! ## The code is the compression-free version, observably -/

/-- The same classes and ranks, whatever the parent pointers in between. -/
structure Sim (s t : UF) : Prop where
  left : Valid s
  right : Valid t
  rank : s.rank = t.rank
  len : s.len = t.len
  rep : ∀ x, s.rep x = t.rep x

theorem Sim.refl {s : UF} (h : Valid s) : Sim s s := ⟨h, h, rfl, rfl, fun _ => rfl⟩

theorem Sim.trans {s t u : UF} (h : Sim s t) (k : Sim t u) : Sim s u :=
  ⟨h.left, k.right, h.rank.trans k.rank, h.len.trans k.len, fun x => (h.rep x).trans (k.rep x)⟩

theorem Sim.symm {s t : UF} (h : Sim s t) : Sim t s :=
  ⟨h.right, h.left, h.rank.symm, h.len.symm, fun x => (h.rep x).symm⟩

theorem sim_of_compressed {s t : UF} (hs : Valid s) (h : Compressed s t) : Sim t s :=
  ⟨h.valid hs, hs, h.rank, h.len, h.rep hs⟩

theorem Sim.link {s t : UF} (h : Sim s t) {rx ry : Nat} (hx : rx < s.len) (hy : ry < s.len)
    (hrx : s.par rx = rx) (hry : s.par ry = ry) (hrx' : t.par rx = rx) (hry' : t.par ry = ry)
    (hne : rx ≠ ry) : Sim (s.link rx ry) (t.link rx ry) := by
  have hk : ∀ z, s.rk z = t.rk z := fun z => by unfold UF.rk; rw [h.rank]
  refine ⟨link_valid h.left hx hy hrx hry hne,
    link_valid h.right (h.len ▸ hx) (h.len ▸ hy) hrx' hry' hne, ?_, ?_, ?_⟩
  · unfold UF.link
    simp only [hk]
    split
    · exact h.rank
    · split
      · exact h.rank
      · simp [UF.setPar, h.rank]
  · rw [link_len, link_len]; exact h.len
  · intro z
    rw [link_rep h.left hx hy hrx hry hne, link_rep h.right (h.len ▸ hx) (h.len ▸ hy) hrx' hry' hne,
      h.rep]
    simp only [lose, win, hk]
    by_cases h1 : t.rk rx < t.rk ry <;> simp [h1]

theorem Sim.linkIf {s t : UF} (h : Sim s t) {x y : Nat} (hx : x < s.len) (hy : y < s.len) :
    (linkIf (s.rep x) (s.rep y) s).1 = (linkIf (t.rep x) (t.rep y) t).1 ∧
      Sim (linkIf (s.rep x) (s.rep y) s).2 (linkIf (t.rep x) (t.rep y) t).2 := by
  rw [← h.rep, ← h.rep]
  unfold UnionFind.linkIf
  split
  · exact ⟨rfl, h⟩
  · rename_i e
    refine ⟨rfl, h.link (rep_lt h.left hx) (rep_lt h.left hy) (rep_root h.left x).isRoot
      (rep_root h.left y).isRoot ?_ ?_ e⟩
    · rw [h.rep]; exact (rep_root h.right x).isRoot
    · rw [h.rep]; exact (rep_root h.right y).isRoot

/-- The code's `union` does what `unionRep` does, up to path compression. -/
theorem union_sim {s t : UF} (h : Sim s t) {x y : Nat} (hx : x < s.len) (hy : y < s.len) :
    (s.union x y).1 = (t.unionRep x y).1 ∧ Sim (s.union x y).2 (t.unionRep x y).2 := by
  unfold UF.union unionThen UF.unionRep
  have c1 := sim_of_compressed h.left (find_compressed h.left x)
  have c2 := sim_of_compressed c1.left (find_compressed c1.left y)
  have h' : Sim ((s.find x).2.find y).2 t := (c2.trans c1).trans h
  have e1 : (s.find x).1 = ((s.find x).2.find y).2.rep x := by
    rw [find_fst, c2.rep, c1.rep]
  have e2 : ((s.find x).2.find y).1 = ((s.find x).2.find y).2.rep y := by
    rw [find_fst, c2.rep]
  rw [e1, e2]
  have hl : ((s.find x).2.find y).2.len = s.len := c2.len.trans c1.len
  exact h'.linkIf (by rw [hl]; exact hx) (by rw [hl]; exact hy)

theorem makeSet_valid {s : UF} (hs : Valid s) : Valid s.makeSet.2 ∧ ∀ x, s.makeSet.2.rep x = s.rep x := by
  have hp : ∀ x, s.makeSet.2.par x = s.par x := by
    intro x
    unfold UF.makeSet UF.par
    simp only [List.getD_eq_getElem?_getD]
    rcases Nat.lt_trichotomy x s.parent.length with h | h | h
    · rw [List.getElem?_append_left h]
    · subst h; simp [UF.len]
    · rw [List.getElem?_eq_none (by simp; omega), List.getElem?_eq_none (by omega)]
  have hk : ∀ x, s.makeSet.2.rk x = s.rk x := by
    intro x
    unfold UF.makeSet UF.rk
    simp only [List.getD_eq_getElem?_getD]
    rcases Nat.lt_trichotomy x s.rank.length with h | h | h
    · rw [List.getElem?_append_left h]
    · subst h; simp
    · rw [List.getElem?_eq_none (by simp; omega), List.getElem?_eq_none (by omega)]
  have hv : Valid s.makeSet.2 := by
    refine ⟨?_, ?_, ?_⟩
    · simp [UF.makeSet, hs.len]
    · intro x hx
      rw [hp]
      have hl : s.makeSet.2.len = s.len + 1 := by simp [UF.makeSet, UF.len]
      rw [hl] at hx ⊢
      by_cases h : x < s.len
      · have := hs.range x h; omega
      · rw [par_out (by omega)]; exact hx
    · intro x hx
      rw [hp] at hx
      rw [hp, hk, hk]; exact hs.grow x hx
  refine ⟨hv, fun x => rep_eq hv ?_⟩
  have : ∀ {x r}, Root s x r → Root s.makeSet.2 x r := by
    intro x r h
    induction h with
    | here e => exact .here (by rw [hp]; exact e)
    | up h1 _ ih => exact .up (by rw [hp]; exact h1) (by rw [hp]; exact ih)
  exact this (rep_root hs x)

theorem makeSet_len (s : UF) : s.makeSet.2.len = s.len + 1 := by simp [UF.makeSet, UF.len]

theorem makeSet_sim {s t : UF} (h : Sim s t) : s.makeSet.1 = t.makeSet.1 ∧ Sim s.makeSet.2 t.makeSet.2 := by
  refine ⟨h.len, (makeSet_valid h.left).1, (makeSet_valid h.right).1, ?_, ?_, ?_⟩
  · simp [UF.makeSet, h.rank]
  · rw [makeSet_len, makeSet_len, h.len]
  · intro x
    rw [(makeSet_valid h.left).2, (makeSet_valid h.right).2, h.rep]

theorem new_valid : Valid UF.new :=
  ⟨rfl, fun x hx => absurd hx (by simp [UF.len, UF.new]), fun x hx => absurd (by simp [UF.par, UF.new]) hx⟩

/-! ## Histories -/

theorem inRange_append {n : Nat} {a b : List Op} :
    InRange n (a ++ b) ↔ InRange n a ∧ InRange (n + made a) b := by
  induction a generalizing n with
  | nil => simp [InRange, made]
  | cons o a ih =>
    cases o <;> simp [InRange, made, ih, and_assoc] <;>
      simp [made, Nat.add_assoc, Nat.add_comm, Nat.add_left_comm]

theorem made_append (a b : List Op) : made (a ++ b) = made a + made b := by simp [made]

/-- What is true after a history. -/
structure Track (ops : List Op) (s : UF) : Prop where
  valid : Valid s
  len : s.len = made ops
  rep : ∀ x y, s.rep x = s.rep y ↔ Connected ops x y

theorem connected_snoc_other {ops : List Op} {o : Op} (ho : ∀ x y, o ≠ .union x y) (x y : Nat) :
    Connected (ops ++ [o]) x y ↔ Connected ops x y := by
  unfold Connected
  have : (fun x y => Op.union x y ∈ ops ++ [o]) = (fun x y => Op.union x y ∈ ops) := by
    funext x y
    have := (ho x y).symm
    simp [this]
  rw [this]

theorem track_step {ops : List Op} {s : UF} (h : Track ops s) (o : Op) (hr : InRange (made ops) [o]) :
    Track (ops ++ [o]) (call s o).2 := by
  cases o with
  | makeSet =>
    refine ⟨(makeSet_valid h.valid).1, ?_, ?_⟩
    · show s.makeSet.2.len = _
      rw [makeSet_len, h.len, made_append]; simp [made]
    · intro x y
      show s.makeSet.2.rep x = s.makeSet.2.rep y ↔ _
      rw [(makeSet_valid h.valid).2, (makeSet_valid h.valid).2, h.rep,
        connected_snoc_other (by intros; simp)]
  | find z =>
    have c := find_compressed h.valid z
    refine ⟨c.valid h.valid, ?_, ?_⟩
    · show (s.find z).2.len = _
      rw [c.len, h.len, made_append]; simp [made]
    · intro x y
      show (s.find z).2.rep x = (s.find z).2.rep y ↔ _
      rw [c.rep h.valid, c.rep h.valid, h.rep, connected_snoc_other (by intros; simp)]
  | union a b =>
    have ha : a < s.len := by rw [h.len]; exact hr.1
    have hb : b < s.len := by rw [h.len]; exact hr.2.1
    have hu := (union_sim (Sim.refl h.valid) ha hb).2
    refine ⟨hu.left, ?_, ?_⟩
    · show (s.union a b).2.len = _
      rw [hu.len, unionRep_len, h.len, made_append]; simp [made]
    · intro x y
      show (s.union a b).2.rep x = (s.union a b).2.rep y ↔ _
      rw [hu.rep, hu.rep, unionRep_rep h.valid ha hb]
      have mono : ∀ {x y}, Connected ops x y → Connected (ops ++ [Op.union a b]) x y := by
        intro x y hc
        induction hc with
        | rel x y h => exact .rel _ _ (List.mem_append_left _ h)
        | refl x => exact .refl x
        | symm _ _ _ ih => exact .symm _ _ ih
        | trans _ _ _ _ _ i1 i2 => exact .trans _ _ _ i1 i2
      have hab : Connected (ops ++ [Op.union a b]) a b := .rel _ _ (by simp)
      constructor
      · rintro (h1 | ⟨h1, h2⟩ | ⟨h1, h2⟩)
        · exact mono ((h.rep _ _).1 h1)
        · exact .trans _ _ _ (mono ((h.rep _ _).1 h1))
            (.trans _ _ _ hab (mono ((h.rep _ _).1 h2.symm)))
        · exact .trans _ _ _ (mono ((h.rep _ _).1 h1))
            (.trans _ _ _ (.symm _ _ hab) (mono ((h.rep _ _).1 h2.symm)))
      · intro hc
        rw [← unionRep_rep h.valid ha hb]
        induction hc with
        | rel x y hm =>
          rw [unionRep_rep h.valid ha hb]
          rcases List.mem_append.1 hm with hm | hm
          · exact Or.inl ((h.rep _ _).2 (.rel _ _ hm))
          · simp only [List.mem_singleton, Op.union.injEq] at hm
            obtain ⟨rfl, rfl⟩ := hm
            exact Or.inr (Or.inl ⟨rfl, rfl⟩)
        | refl => rfl
        | symm _ _ _ ih => exact ih.symm
        | trans _ _ _ _ _ i1 i2 => exact i1.trans i2

theorem track_from {ops os : List Op} {s : UF} (h : Track ops s) (hr : InRange (made ops) os) :
    Track (ops ++ os) (after s os) := by
  induction os generalizing ops s with
  | nil => simpa [after] using h
  | cons o os ih =>
    have hr' := (inRange_append (a := [o]) (b := os)).1 hr
    have := ih (track_step h o hr'.1) (by rw [made_append]; exact hr'.2)
    simpa [after, List.append_assoc] using this

theorem track_new : Track [] UF.new := by
  refine ⟨new_valid, rfl, fun x y => ?_⟩
  have : ∀ x, UF.new.rep x = x := fun x => rep_out new_valid (by simp [UF.len, UF.new])
  rw [this, this]
  constructor
  · rintro rfl; exact .refl _
  · intro h
    induction h with
    | rel _ _ h => cases h
    | refl => rfl
    | symm _ _ _ ih => exact ih.symm
    | trans _ _ _ _ _ i1 i2 => exact i1.trans i2

theorem track {ops : List Op} (h : InRange 0 ops) : Track ops (after UF.new ops) := by
  have := track_from track_new (os := ops) h
  simpa using this

end Verif.UnionFind
