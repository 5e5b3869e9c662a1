import Verif.Solve.TwoSat
import Mathlib.Logic.Relation
import Mathlib.Data.List.Count
import Mathlib.Data.List.Nodup
namespace Verif.Solve.Two
open Relation

abbrev Reach (E : List (Nat × Nat)) : Nat → Nat → Prop := ReflTransGen fun u w => (u, w) ∈ E

theorem mem_adj {E : List (Nat × Nat)} {u w : Nat} : w ∈ adj E u ↔ (u, w) ∈ E := by
  simp [adj]

theorem mem_radj {E : List (Nat × Nat)} {u w : Nat} : w ∈ radj E u ↔ (w, u) ∈ E := by
  simp [radj]

def EdgesIn (E : List (Nat × Nat)) (nn : Nat) : Prop := ∀ e ∈ E, e.1 < nn ∧ e.2 < nn

/-! ## Counting the nodes not yet visited -/

open Classical in
noncomputable def unseen (nn : Nat) (p : Nat → Prop) : Nat := (List.range nn).countP fun i => !decide (p i)

open Classical in
theorem unseen_mono {nn : Nat} {p q : Nat → Prop} (h : ∀ i, p i → q i) :
    unseen nn q ≤ unseen nn p := by
  unfold unseen
  apply List.countP_mono_left
  intro x _ hx
  simp only [Bool.not_eq_true', decide_eq_false_iff_not] at hx ⊢
  exact fun hp => hx (h x hp)

open Classical in
theorem unseen_lt {nn : Nat} {p q : Nat → Prop} (h : ∀ i, p i → q i)
    {v : Nat} (hv : v < nn) (hq : q v) (hp : ¬ p v) : unseen nn q < unseen nn p := by
  unfold unseen
  induction nn with
  | zero => omega
  | succ m ih =>
    rw [List.range_succ, List.countP_append, List.countP_append]
    have hmono : (List.range m).countP (fun i => !decide (q i)) ≤ (List.range m).countP (fun i => !decide (p i)) :=
      unseen_mono h
    by_cases e : v = m
    · subst e
      have h1 : [v].countP (fun i => !decide (q i)) = 0 := by simp [hq]
      have h2 : [v].countP (fun i => !decide (p i)) = 1 := by simp [hp]
      omega
    · have := ih (by omega)
      have h1 : [m].countP (fun i => !decide (q i)) ≤ [m].countP (fun i => !decide (p i)) := by
        apply List.countP_mono_left
        intro x _ hx
        simp only [Bool.not_eq_true', decide_eq_false_iff_not] at hx ⊢
        exact fun hp => hx (h x hp)
      omega

open Classical in
theorem unseen_le (nn : Nat) (p : Nat → Prop) : unseen nn p ≤ nn := by
  unfold unseen
  have := List.countP_le_length (p := fun i => !decide (p i)) (l := List.range nn)
  simpa using this

/-! ## The finish order -/

/-- `w` comes later in `C`, and reaches everything up to it. -/
def Later (E : List (Nat × Nat)) (u : Nat) (C : List Nat) (w : Nat) : Prop :=
  ∃ C1 C2, C = C1 ++ w :: C2 ∧ Reach E w u ∧ ∀ z ∈ C1, Reach E w z

/-- Every edge leads back in the order, or forward to a node that reaches all in between. -/
def Good (E : List (Nat × Nat)) (V : Nat → Prop) : List Nat → Prop
  | [] => True
  | u :: C => (∀ w, (u, w) ∈ E → V w ∨ w = u ∨ Later E u C w) ∧ Good E (fun x => V x ∨ x = u) C

theorem Good.mono {E : List (Nat × Nat)} {D : List Nat} : ∀ {V V' : Nat → Prop}, (∀ x, V x → V' x) →
    Good E V D → Good E V' D := by
  induction D with
  | nil => intros; trivial
  | cons u C ih =>
    intro V V' h hg
    refine ⟨fun w hw => ?_, ih (fun x hx => hx.imp (h x) id) hg.2⟩
    exact (hg.1 w hw).imp (h w) id

theorem Good.append {E : List (Nat × Nat)} {D D' : List Nat} : ∀ {V : Nat → Prop}, Good E V D →
    Good E (fun x => V x ∨ x ∈ D) D' → Good E V (D ++ D') := by
  induction D with
  | nil => intro V _ h; exact h.mono (by simp)
  | cons u C ih =>
    intro V hg h
    refine ⟨fun w hw => ?_, ih hg.2 (h.mono ?_)⟩
    · rcases hg.1 w hw with h | h | ⟨C1, C2, e, h1, h2⟩
      · exact .inl h
      · exact .inr (.inl h)
      · exact .inr (.inr ⟨C1, C2 ++ D', by simp [e], h1, h2⟩)
    · intro x hx
      rcases hx with hx | hx
      · exact .inl (.inl hx)
      · rcases List.mem_cons.1 hx with e | hx
        · exact .inl (.inr e)
        · exact .inr hx

/-- Closing a call: the node on whose behalf `D` was visited is finished. -/
theorem Good.close {E : List (Nat × Nat)} {v : Nat} {D : List Nat} : ∀ {V : Nat → Prop},
    Good E (fun x => V x ∨ x = v) D → (∀ x ∈ D, Reach E v x) →
    (∀ w, (v, w) ∈ E → V w ∨ w ∈ D ∨ w = v) → Good E V (D ++ [v]) := by
  induction D with
  | nil =>
    intro V _ _ h
    refine ⟨fun w hw => ?_, trivial⟩
    rcases h w hw with h | h | h
    · exact .inl h
    · cases h
    · exact .inr (.inl h)
  | cons u C ih =>
    intro V hg hr h
    refine ⟨fun w hw => ?_, ?_⟩
    · rcases hg.1 w hw with (h | h) | h | ⟨C1, C2, e, h1, h2⟩
      · exact .inl h
      · subst h
        exact .inr (.inr ⟨C, [], rfl, hr u (by simp), fun z hz => hr z (by simp [hz])⟩)
      · exact .inr (.inl h)
      · exact .inr (.inr ⟨C1, C2 ++ [v], by simp [e], h1, h2⟩)
    · apply ih (hg.2.mono ?_) (fun x hx => hr x (by simp [hx]))
      · intro w hw
        rcases h w hw with h | h | h
        · exact .inl (.inl h)
        · rcases List.mem_cons.1 h with e | h
          · exact .inl (.inr e)
          · exact .inr (.inl h)
        · exact .inr (.inr h)
      · intro x hx
        rcases hx with (hx | hx) | hx
        · exact .inl (.inl hx)
        · exact .inr hx
        · exact .inl (.inr hx)

/-- What a stretch of the first pass adds. -/
structure Ext (E : List (Nat × Nat)) (nn : Nat) (s s' : St1) (D : List Nat) : Prop where
  order : s'.order = s.order ++ D
  visited : ∀ x, x ∈ s'.visited ↔ x ∈ s.visited ∨ x ∈ D
  fresh : ∀ x ∈ D, x ∉ s.visited ∧ x < nn
  nodup : D.Nodup
  good : Good E (fun x => x ∈ s.visited) D

theorem Ext.refl (E : List (Nat × Nat)) (nn : Nat) (s : St1) : Ext E nn s s [] :=
  ⟨by simp, by simp, by simp, by simp, trivial⟩

theorem Ext.trans {E : List (Nat × Nat)} {nn : Nat} {s s' s'' : St1} {D D' : List Nat} (h : Ext E nn s s' D)
    (h' : Ext E nn s' s'' D') : Ext E nn s s'' (D ++ D') := by
  refine ⟨by rw [h'.order, h.order, List.append_assoc], ?_, ?_, ?_, ?_⟩
  · intro x; rw [h'.visited, h.visited, List.mem_append, or_assoc]
  · intro x hx
    rcases List.mem_append.1 hx with hx | hx
    · exact h.fresh x hx
    · have := h'.fresh x hx
      rw [h.visited] at this
      exact ⟨fun hv => this.1 (.inl hv), this.2⟩
  · rw [List.nodup_append]
    refine ⟨h.nodup, h'.nodup, ?_⟩
    intro a ha b hb e
    subst e
    have := (h'.fresh a hb).1
    rw [h.visited] at this
    exact this (.inr ha)
  · exact h.good.append (h'.good.mono fun x hx => by rwa [h.visited] at hx)

theorem dfs1_spec {E : List (Nat × Nat)} {nn : Nat} (hE : EdgesIn E nn) : ∀ (f : Nat) (v : Nat) (s : St1),
    v < nn → v ∉ s.visited → unseen nn (fun x => x ∈ s.visited) ≤ f →
    ∃ D, Ext E nn s (dfs1 E f v s) D ∧ v ∈ D ∧ ∀ x ∈ D, Reach E v x := by
  intro f
  induction f with
  | zero =>
    intro v s hv hn hu
    have := unseen_lt (nn := nn) (p := fun x => x ∈ s.visited) (q := fun x => x ∈ v :: s.visited)
      (fun i hi => by simp [hi]) hv (by simp) hn
    omega
  | succ f ih =>
    intro v s hv hn hu
    have hlt := unseen_lt (nn := nn) (p := fun x => x ∈ s.visited) (q := fun x => x ∈ v :: s.visited)
      (fun i hi => by simp [hi]) hv (by simp) hn
    have loop : ∀ (us : List Nat) (s0 : St1), (∀ u ∈ us, (v, u) ∈ E) →
        unseen nn (fun x => x ∈ s0.visited) ≤ f →
        ∃ D, Ext E nn s0 (us.foldl (fun s u => if u ∈ s.visited then s else dfs1 E f u s) s0) D ∧
          (∀ x ∈ D, Reach E v x) ∧
          ∀ u ∈ us, u ∈ (us.foldl (fun s u => if u ∈ s.visited then s else dfs1 E f u s) s0).visited := by
      intro us
      induction us with
      | nil => intro s0 _ _; exact ⟨[], Ext.refl E nn s0, by simp, by simp⟩
      | cons u us ihl =>
        intro s0 hus hf
        simp only [List.foldl_cons]
        by_cases hm : u ∈ s0.visited
        · rw [if_pos hm]
          obtain ⟨D, h1, h2, h3⟩ := ihl s0 (fun x hx => hus x (by simp [hx])) hf
          refine ⟨D, h1, h2, ?_⟩
          intro x hx
          rcases List.mem_cons.1 hx with e | hx
          · subst e; rw [h1.visited]; exact .inl hm
          · exact h3 x hx
        · rw [if_neg hm]
          have hvu := hus u (by simp)
          obtain ⟨D1, a1, a2, a3⟩ := ih u s0 (hE _ hvu).2 hm hf
          obtain ⟨D2, b1, b2, b3⟩ := ihl (dfs1 E f u s0) (fun x hx => hus x (by simp [hx]))
            (Nat.le_trans (unseen_mono fun i hi => by rw [a1.visited]; exact .inl hi) hf)
          refine ⟨D1 ++ D2, a1.trans b1, ?_, ?_⟩
          · intro x hx
            rcases List.mem_append.1 hx with hx | hx
            · exact .head hvu (a3 x hx)
            · exact b2 x hx
          · intro x hx
            rcases List.mem_cons.1 hx with e | hx
            · subst e
              rw [b1.visited, a1.visited]
              exact .inl (.inr a2)
            · exact b3 x hx
    obtain ⟨D, h1, h2, h3⟩ := loop (adj E v) { s with visited := v :: s.visited } (fun u hu => mem_adj.1 hu)
      (by show unseen nn (fun x => x ∈ v :: s.visited) ≤ f; omega)
    refine ⟨D ++ [v], ⟨?_, ?_, ?_, ?_, ?_⟩, by simp, ?_⟩
    · simp only [dfs1, h1.order, List.append_assoc]
    · intro x
      simp only [dfs1]
      rw [h1.visited]
      simp only [List.mem_cons, List.mem_append, List.not_mem_nil, or_false]
      constructor
      · rintro ((h | h) | h)
        · exact .inr (.inr h)
        · exact .inl h
        · exact .inr (.inl h)
      · rintro (h | h | h)
        · exact .inl (.inr h)
        · exact .inr h
        · exact .inl (.inl h)
    · intro x hx
      rcases List.mem_append.1 hx with hx | hx
      · have := h1.fresh x hx
        exact ⟨fun h => this.1 (List.mem_cons_of_mem _ h), this.2⟩
      · rw [List.mem_singleton.1 hx]; exact ⟨hn, hv⟩
    · rw [List.nodup_append]
      refine ⟨h1.nodup, by simp, ?_⟩
      intro a ha b hb e
      rw [List.mem_singleton.1 hb] at e
      subst e
      exact (h1.fresh a ha).1 (by simp)
    · apply Good.close (h1.good.mono ?_) h2 ?_
      · intro x hx
        rcases List.mem_cons.1 hx with e | hx
        · exact .inr e
        · exact .inl hx
      · intro w hw
        have := h3 w (mem_adj.2 hw)
        rw [h1.visited] at this
        rcases this with h | h
        · rcases List.mem_cons.1 h with e | h
          · exact .inr (.inr e)
          · exact .inl h
        · exact .inr (.inl h)
    · intro x hx
      rcases List.mem_append.1 hx with hx | hx
      · exact h2 x hx
      · rw [List.mem_singleton.1 hx]

theorem pass1_spec {E : List (Nat × Nat)} {nn : Nat} (hE : EdgesIn E nn) :
    (pass1 E nn).order.Nodup ∧ (∀ x, x ∈ (pass1 E nn).order ↔ x < nn) ∧
      Good E (fun _ => False) (pass1 E nn).order := by
  have gen : ∀ (vs : List Nat) (s : St1), (∀ v ∈ vs, v < nn) →
      ∃ D, Ext E nn s (vs.foldl (fun s v => if v ∈ s.visited then s else dfs1 E nn v s) s) D ∧
        ∀ v ∈ vs, v ∈ (vs.foldl (fun s v => if v ∈ s.visited then s else dfs1 E nn v s) s).visited := by
    intro vs
    induction vs with
    | nil => intro s _; exact ⟨[], Ext.refl E nn s, by simp⟩
    | cons v vs ih =>
      intro s hv
      simp only [List.foldl_cons]
      by_cases hm : v ∈ s.visited
      · rw [if_pos hm]
        obtain ⟨D, h1, h2⟩ := ih s (fun x hx => hv x (by simp [hx]))
        refine ⟨D, h1, ?_⟩
        intro x hx
        rcases List.mem_cons.1 hx with e | hx
        · subst e; rw [h1.visited]; exact .inl hm
        · exact h2 x hx
      · rw [if_neg hm]
        obtain ⟨D1, a1, a2, a3⟩ := dfs1_spec hE nn v s (hv v (by simp)) hm (unseen_le _ _)
        obtain ⟨D2, b1, b2⟩ := ih (dfs1 E nn v s) (fun x hx => hv x (by simp [hx]))
        refine ⟨D1 ++ D2, a1.trans b1, ?_⟩
        intro x hx
        rcases List.mem_cons.1 hx with e | hx
        · subst e; rw [b1.visited, a1.visited]; exact .inl (.inr a2)
        · exact b2 x hx
  obtain ⟨D, h1, h2⟩ := gen (List.range nn) ⟨[], []⟩ (fun v hv => List.mem_range.1 hv)
  have ho : (pass1 E nn).order = D := by have := h1.order; simpa [pass1] using this
  rw [ho]
  refine ⟨h1.nodup, fun x => ⟨fun hx => (h1.fresh x hx).2, fun hx => ?_⟩, h1.good.mono (by simp)⟩
  have := h2 x (List.mem_range.2 hx)
  rw [h1.visited] at this
  rcases this with h | h
  · cases h
  · exact h

/-! ## Positions in the order -/

theorem Good.split {E : List (Nat × Nat)} {D : List Nat} : ∀ {V : Nat → Prop} {A C : List Nat} {u w : Nat},
    Good E V D → D = A ++ u :: C → (u, w) ∈ E → V w ∨ w ∈ A ∨ w = u ∨ Later E u C w := by
  induction D with
  | nil => intro V A C u w _ h; simp at h
  | cons x D ih =>
    intro V A C u w hg h he
    cases A with
    | nil =>
      simp only [List.nil_append, List.cons.injEq] at h
      obtain ⟨rfl, rfl⟩ := h
      rcases hg.1 w he with h | h | h
      · exact .inl h
      · exact .inr (.inr (.inl h))
      · exact .inr (.inr (.inr h))
    | cons a A =>
      simp only [List.cons_append, List.cons.injEq] at h
      obtain ⟨rfl, h⟩ := h
      rcases ih hg.2 h he with (h | h) | h | h | h
      · exact .inl h
      · exact .inr (.inl (by simp [h]))
      · exact .inr (.inl (by simp [h]))
      · exact .inr (.inr (.inl h))
      · exact .inr (.inr (.inr h))

theorem idx_split {A C : List Nat} {u : Nat} (hn : (A ++ u :: C).Nodup) : (A ++ u :: C).idxOf u = A.length := by
  have : u ∉ A := fun h => (List.nodup_append.1 hn).2.2 u h u (by simp) rfl
  rw [List.idxOf_append_of_notMem this]
  simp

theorem exists_split {O : List Nat} {u : Nat} (h : u ∈ O) : ∃ A C, O = A ++ u :: C := List.append_of_mem h

/-- The order in terms of positions. -/
theorem good_pos {E : List (Nat × Nat)} {O : List Nat} (hg : Good E (fun _ => False) O) (hn : O.Nodup) {u w : Nat}
    (hu : u ∈ O) (he : (u, w) ∈ E) :
    (w ∈ O ∧ O.idxOf w ≤ O.idxOf u) ∨ ∀ z ∈ O, O.idxOf u ≤ O.idxOf z → O.idxOf z ≤ O.idxOf w → Reach E w z := by
  obtain ⟨A, C, e⟩ := exists_split hu
  have hiu : O.idxOf u = A.length := by subst e; exact idx_split hn
  rcases hg.split e he with h | h | h | ⟨C1, C2, e2, h1, h2⟩
  · exact h.elim
  · left
    subst e
    refine ⟨by simp [h], ?_⟩
    rw [hiu, List.idxOf_append_of_mem h]
    exact Nat.le_of_lt (List.idxOf_lt_length_of_mem h)
  · subst h; exact .inl ⟨hu, Nat.le_refl _⟩
  · right
    intro z hz hz1 hz2
    subst e2
    have ew : O = (A ++ u :: C1) ++ w :: C2 := by rw [e]; simp
    have hiw : O.idxOf w = (A ++ u :: C1).length := by rw [ew] at hn ⊢; exact idx_split hn
    obtain ⟨P, Q, ez⟩ := exists_split hz
    have hiz : O.idxOf z = P.length := by rw [ez] at hn ⊢; exact idx_split hn
    have hgz : O[P.length]? = some z := by rw [ez]; simp
    rw [hiu, hiz] at hz1
    rw [hiw, hiz] at hz2
    rw [ew] at hgz
    simp only [List.length_append, List.length_cons] at hz2
    by_cases e1 : P.length = A.length
    · rw [e1] at hgz
      simp at hgz
      rw [← hgz]; exact h1
    · by_cases e3 : P.length = A.length + (C1.length + 1)
      · have : P.length = (A ++ u :: C1).length := by simpa using e3
        rw [this] at hgz
        rw [List.getElem?_append_right (Nat.le_refl _), Nat.sub_self] at hgz
        simp at hgz
        rw [hgz]
      · rw [List.getElem?_append_left (by simp; omega), List.getElem?_append_right hz1] at hgz
        have : P.length - A.length = (P.length - A.length - 1) + 1 := by omega
        rw [this, List.getElem?_cons_succ] at hgz
        exact h2 z (List.mem_of_getElem? hgz)

/-- A path inside a set `U` of nodes of the order: its latest node reaches every node of the order from the start of
the path on. -/
theorem path_max {E : List (Nat × Nat)} {O : List Nat} (hg : Good E (fun _ => False) O) (hn : O.Nodup)
    {U : Nat → Prop} (hU : ∀ x, U x → x ∈ O) {y : Nat} (hy : U y) {x : Nat}
    (hp : ReflTransGen (fun u w => (u, w) ∈ E ∧ U u ∧ U w) x y) :
    ∃ M, U M ∧ O.idxOf y ≤ O.idxOf M ∧ O.idxOf x ≤ O.idxOf M ∧
      ∀ z ∈ O, O.idxOf x ≤ O.idxOf z → O.idxOf z ≤ O.idxOf M → Reach E M z := by
  have inj : ∀ {a b : Nat}, a ∈ O → O.idxOf a = O.idxOf b → a = b := by
    intro a b ha h
    exact (List.idxOf_inj ha).1 h
  induction hp using ReflTransGen.head_induction_on with
  | refl =>
    refine ⟨y, hy, Nat.le_refl _, Nat.le_refl _, ?_⟩
    intro z hz h1 h2
    rw [inj hz (Nat.le_antisymm h2 h1)]
  | @head x x1 hxx _ ih =>
    obtain ⟨M, hM, h1, h2, h3⟩ := ih
    by_cases hlt : O.idxOf M < O.idxOf x
    · refine ⟨x, hxx.2.1, by omega, Nat.le_refl _, ?_⟩
      intro z hz a b
      rw [inj hz (Nat.le_antisymm b a)]
    · refine ⟨M, hM, h1, by omega, ?_⟩
      intro z hz a b
      by_cases hz1 : O.idxOf x1 ≤ O.idxOf z
      · exact h3 z hz hz1 b
      · rcases good_pos hg hn (hU x hxx.2.1) hxx.1 with ⟨_, h⟩ | h
        · omega
        · exact (h3 x1 (hU x1 hxx.2.2) (Nat.le_refl _) h2).trans (h z hz a (by omega))

/-! ## The components -/

/-- What a stretch of the second pass adds: the nodes `B`, all with number `c`. -/
structure Ext2 (E : List (Nat × Nat)) (nn c : Nat) (r : Nat) (p p' : Comp) : Prop where
  keep : ∀ x k, p x = some k → p' x = some k
  new : ∀ x, p x = none → ∀ k, p' x = some k → k = c ∧ x < nn ∧
    ReflTransGen (fun u w => (u, w) ∈ E ∧ p u = none ∧ p w = none) x r
  closed : ∀ x, p x = none → p' x ≠ none → ∀ u, (u, x) ∈ E → p' u ≠ none

theorem dfs2_spec {E : List (Nat × Nat)} {nn c : Nat} (hE : EdgesIn E nn) : ∀ (f : Nat) (v : Nat) (p : Comp),
    v < nn → p v = none → unseen nn (fun x => p x ≠ none) ≤ f →
    Ext2 E nn c v p (dfs2 E c f v p) ∧ dfs2 E c f v p v ≠ none := by
  intro f
  induction f with
  | zero =>
    intro v p hv hn hu
    have := unseen_lt (nn := nn) (p := fun x => p x ≠ none) (q := fun x => setC p v c x ≠ none)
      (fun i hi => by unfold setC; split <;> simp_all) hv (by simp [setC]) (by simp [hn])
    omega
  | succ f ih =>
    intro v p hv hn hu
    have hlt := unseen_lt (nn := nn) (p := fun x => p x ≠ none) (q := fun x => setC p v c x ≠ none)
      (fun i hi => by unfold setC; split <;> simp_all) hv (by simp [setC]) (by simp [hn])
    -- the loop over the predecessors, relative to the comp `p` on entry
    have loop : ∀ (us : List Nat) (q : Comp), (∀ u ∈ us, (u, v) ∈ E) →
        unseen nn (fun x => q x ≠ none) ≤ f →
        (∀ x k, p x = some k → q x = some k) →
        (∀ x, p x = none → ∀ k, q x = some k → k = c ∧ x < nn ∧
          ReflTransGen (fun u w => (u, w) ∈ E ∧ p u = none ∧ p w = none) x v) →
        (∀ x, p x = none → q x ≠ none → x ≠ v → ∀ u, (u, x) ∈ E → q u ≠ none) → q v ≠ none →
        let q' := us.foldl (fun comp u => if comp u = none then dfs2 E c f u comp else comp) q
        (∀ x k, p x = some k → q' x = some k) ∧
        (∀ x, p x = none → ∀ k, q' x = some k → k = c ∧ x < nn ∧
          ReflTransGen (fun u w => (u, w) ∈ E ∧ p u = none ∧ p w = none) x v) ∧
        (∀ x, p x = none → q' x ≠ none → x ≠ v → ∀ u, (u, x) ∈ E → q' u ≠ none) ∧ q' v ≠ none ∧
        (∀ x, q x ≠ none → q' x ≠ none) ∧ ∀ u ∈ us, q' u ≠ none := by
      intro us
      induction us with
      | nil => intro q _ _ h1 h2 h3 h4; exact ⟨h1, h2, h3, h4, fun _ h => h, by simp⟩
      | cons u us ihl =>
        intro q hus hf h1 h2 h3 h4
        simp only [List.foldl_cons]
        by_cases hm : q u = none
        · rw [if_pos hm]
          have hvu := hus u (by simp)
          obtain ⟨e, eu⟩ := ih u q (hE _ hvu).1 hm hf
          have qp : ∀ x, q x = none → p x = none := by
            intro x hx
            cases hpx : p x with
            | none => rfl
            | some k => rw [h1 x k hpx] at hx; cases hx
          have keep : ∀ x, q x ≠ none → dfs2 E c f u q x ≠ none := by
            intro x hx
            cases hq : q x with
            | none => exact absurd hq hx
            | some k => rw [e.keep x k hq]; simp
          have := ihl (dfs2 E c f u q) (fun x hx => hus x (by simp [hx]))
            (Nat.le_trans (unseen_mono fun i hi => keep i hi) hf)
            (fun x k hx => e.keep x k (h1 x k hx))
            (by
              intro x hx k hk
              cases hq : q x with
              | some k' =>
                rw [e.keep x k' hq] at hk
                cases hk
                exact h2 x hx _ hq
              | none =>
                obtain ⟨a, b, d⟩ := e.new x hq k hk
                refine ⟨a, b, ?_⟩
                have d' : ReflTransGen (fun u w => (u, w) ∈ E ∧ p u = none ∧ p w = none) x u :=
                  d.lift id (fun a b h => ⟨h.1, qp a h.2.1, qp b h.2.2⟩)
                exact d'.tail ⟨hvu, qp u hm, hn⟩)
            (by
              intro x hx hk hxv w hw
              cases hq : q x with
              | some k' => exact keep w (h3 x hx (by simp [hq]) hxv w hw)
              | none => exact e.closed x hq hk w hw)
            (keep v h4)
          obtain ⟨a1, a2, a3, a4, a5, a6⟩ := this
          refine ⟨a1, a2, a3, a4, fun x hx => a5 x (keep x hx), ?_⟩
          intro x hx
          rcases List.mem_cons.1 hx with e | hx
          · subst e; exact a5 x eu
          · exact a6 x hx
        · rw [if_neg hm]
          obtain ⟨a1, a2, a3, a4, a5, a6⟩ := ihl q (fun x hx => hus x (by simp [hx])) hf h1 h2 h3 h4
          refine ⟨a1, a2, a3, a4, a5, ?_⟩
          intro x hx
          rcases List.mem_cons.1 hx with e | hx
          · subst e; exact a5 x hm
          · exact a6 x hx
    have := loop (radj E v) (setC p v c) (fun u hu => mem_radj.1 hu) (by omega)
      (by
        intro x k hx
        unfold setC
        split
        · next e => subst e; rw [hn] at hx; cases hx
        · exact hx)
      (by
        intro x hx k hk
        unfold setC at hk
        split at hk
        · next e => subst e; cases hk; exact ⟨rfl, hv, .refl⟩
        · rw [hx] at hk; cases hk)
      (by
        intro x hx hk hxv
        unfold setC at hk
        rw [if_neg hxv] at hk
        exact absurd hx hk)
      (by simp [setC])
    obtain ⟨a1, a2, a3, a4, a5, a6⟩ := this
    refine ⟨⟨a1, a2, ?_⟩, a4⟩
    intro x hx hk u hu
    by_cases e : x = v
    · subst e; exact a6 u (mem_radj.2 hu)
    · exact a3 x hx hk e u hu

/-- The invariant of the second pass: `done` is the part of the order already processed. -/
structure Inv2 (E : List (Nat × Nat)) (s : Comp × Nat) : Prop where
  below : ∀ x k, s.1 x = some k → k < s.2
  closed : ∀ x, s.1 x ≠ none → ∀ u, (u, x) ∈ E → s.1 u ≠ none
  topo : ∀ u x j k, (u, x) ∈ E → s.1 u = some j → s.1 x = some k → j ≤ k
  same : ∀ x y k, s.1 x = some k → s.1 y = some k → Reach E x y

theorem root_inv {E : List (Nat × Nat)} {nn : Nat} {O P Q : List Nat} {v : Nat} {s : Comp × Nat}
    (hE : EdgesIn E nn) (hg : Good E (fun _ => False) O) (hn : O.Nodup) (hO : ∀ x, x ∈ O ↔ x < nn)
    (e : O = P ++ v :: Q) (hQ : ∀ x ∈ Q, s.1 x ≠ none) (hi : Inv2 E s) :
    Inv2 E (root E nn s v) ∧ (∀ x, s.1 x ≠ none → (root E nn s v).1 x ≠ none) ∧ (root E nn s v).1 v ≠ none := by
  unfold root
  by_cases hv : s.1 v = none
  · rw [if_pos hv]
    have hvO : v ∈ O := by rw [e]; simp
    obtain ⟨h, hvv⟩ := dfs2_spec (c := s.2) hE nn v s.1 ((hO v).1 hvO) hv (unseen_le _ _)
    have keep : ∀ x, s.1 x ≠ none → dfs2 E s.2 nn v s.1 x ≠ none := by
      intro x hx
      cases hq : s.1 x with
      | none => exact absurd hq hx
      | some k => rw [h.keep x k hq]; simp
    have old : ∀ x k, dfs2 E s.2 nn v s.1 x = some k → s.1 x = some k ∨ (s.1 x = none ∧ k = s.2) := by
      intro x k hk
      cases hq : s.1 x with
      | none => exact .inr ⟨rfl, (h.new x hq k hk).1⟩
      | some k' => rw [h.keep x k' hq] at hk; cases hk; exact .inl rfl
    -- the nodes of the new component and the root reach each other
    have mutualReach : ∀ x, s.1 x = none → ∀ k, dfs2 E s.2 nn v s.1 x = some k → Reach E x v ∧ Reach E v x := by
      intro x hx k hk
      obtain ⟨_, hxn, hp⟩ := h.new x hx k hk
      refine ⟨hp.lift id (fun _ _ h => h.1), ?_⟩
      have hp' : ReflTransGen (fun u w => (u, w) ∈ E ∧ (s.1 u = none ∧ u < nn) ∧ (s.1 w = none ∧ w < nn)) x v :=
        hp.lift id (fun a b h => ⟨h.1, ⟨h.2.1, (hE _ h.1).1⟩, ⟨h.2.2, (hE _ h.1).2⟩⟩)
      obtain ⟨M, hM, h1, h2, h3⟩ := path_max hg hn (U := fun a => s.1 a = none ∧ a < nn)
        (fun a ha => (hO a).2 ha.2) ⟨hv, (hO v).1 hvO⟩ hp'
      have hMO : M ∈ P ++ v :: Q := by rw [← e]; exact (hO M).2 hM.2
      have hiv : O.idxOf v = P.length := by rw [e] at hn ⊢; exact idx_split hn
      have hMv : M = v := by
        rcases List.mem_append.1 hMO with hm | hm
        · exfalso
          have hlt : O.idxOf M < P.length := by
            rw [e, List.idxOf_append_of_mem hm]
            exact List.idxOf_lt_length_of_mem hm
          omega
        · rcases List.mem_cons.1 hm with hm | hm
          · exact hm
          · exact absurd hM.1 (hQ M hm)
      subst hMv
      exact h3 x ((hO x).2 hxn) (Nat.le_refl _) h2
    refine ⟨⟨?_, ?_, ?_, ?_⟩, keep, hvv⟩
    · intro x k hk
      show k < s.2 + 1
      rcases old x k hk with h | h
      · have := hi.below x k h; omega
      · omega
    · intro x hx u hu
      by_cases hq : s.1 x = none
      · exact h.closed x hq hx u hu
      · exact keep u (hi.closed x hq u hu)
    · intro u x j k hux hj hk
      rcases old x k hk with hx | hx
      · rcases old u j hj with hu | hu
        · exact hi.topo u x j k hux hu hx
        · exact absurd hu.1 (hi.closed x (by simp [hx]) u hux)
      · rcases old u j hj with hu | hu
        · have := hi.below u j hu; omega
        · omega
    · intro x y k hx hy
      rcases old x k hx with hx' | hx'
      · rcases old y k hy with hy' | hy'
        · exact hi.same x y k hx' hy'
        · have := hi.below x k hx'; omega
      · rcases old y k hy with hy' | hy'
        · have := hi.below y k hy'; omega
        · exact (mutualReach x hx'.1 k hx).1.trans (mutualReach y hy'.1 k hy).2
  · rw [if_neg hv]
    exact ⟨hi, fun _ h => h, hv⟩

theorem pass2_spec {E : List (Nat × Nat)} {nn : Nat} {O : List Nat} (hE : EdgesIn E nn)
    (hg : Good E (fun _ => False) O) (hn : O.Nodup) (hO : ∀ x, x ∈ O ↔ x < nn) :
    (∀ x < nn, ∃ k, pass2 E nn O x = some k) ∧
    (∀ u x j k, (u, x) ∈ E → pass2 E nn O u = some j → pass2 E nn O x = some k → j ≤ k) ∧
    (∀ x y, x < nn → pass2 E nn O x = pass2 E nn O y → Reach E x y) := by
  have gen : ∀ (R : List Nat) (P Q : List Nat) (s : Comp × Nat), O = P ++ Q → R = P.reverse →
      (∀ x ∈ Q, s.1 x ≠ none) → Inv2 E s →
      Inv2 E (R.foldl (root E nn) s) ∧ ∀ x ∈ O, (R.foldl (root E nn) s).1 x ≠ none := by
    intro R
    induction R with
    | nil =>
      intro P Q s e hR hQ hi
      have : P = [] := by simpa using congrArg List.reverse hR.symm
      subst this
      exact ⟨hi, fun x hx => hQ x (by simpa [e] using hx)⟩
    | cons v R ih =>
      intro P Q s e hR hQ hi
      have hP : P = R.reverse ++ [v] := by simpa using congrArg List.reverse hR.symm
      have e' : O = R.reverse ++ v :: Q := by rw [e, hP]; simp
      obtain ⟨h1, h2, h3⟩ := root_inv hE hg hn hO e' hQ hi
      simp only [List.foldl_cons]
      refine ih R.reverse (v :: Q) _ e' (by simp) ?_ h1
      intro x hx
      rcases List.mem_cons.1 hx with ex | hx
      · subst ex; exact h3
      · exact h2 x (hQ x hx)
  obtain ⟨hi, hall⟩ := gen O.reverse O [] ((fun _ => none), 0) (by simp) rfl (by simp)
    ⟨by simp, by simp, by simp, by simp⟩
  have hex : ∀ x < nn, ∃ k, pass2 E nn O x = some k := fun x hx =>
    Option.ne_none_iff_exists'.1 (hall x ((hO x).2 hx))
  refine ⟨hex, hi.topo, ?_⟩
  intro x y hx he
  obtain ⟨k, hk⟩ := hex x hx
  exact hi.same x y k hk (by rw [← hk, he]; rfl)

/-! ## The checker's search -/

theorem pushNew_spec (ws : List Nat) : ∀ s : List Nat × List Nat,
    (∀ x, x ∈ (pushNew ws s).1 ↔ x ∈ s.1 ∨ x ∈ ws) ∧
    (∀ x, x ∈ (pushNew ws s).2 ↔ x ∈ s.2 ∨ (x ∈ ws ∧ x ∉ s.1)) ∧
    (∀ nn, (∀ w ∈ ws, w < nn) → (pushNew ws s).2.length + unseen nn (fun x => x ∈ (pushNew ws s).1) ≤
      s.2.length + unseen nn (fun x => x ∈ s.1)) := by
  induction ws with
  | nil => intro s; simp [pushNew]
  | cons w ws ih =>
    intro s
    simp only [pushNew]
    by_cases h : w ∈ s.1
    · rw [if_pos h]
      obtain ⟨a, b, c⟩ := ih s
      refine ⟨?_, ?_, fun nn hw => c nn fun x hx => hw x (by simp [hx])⟩
      · intro x
        rw [a, List.mem_cons]
        constructor
        · rintro (h | h)
          · exact .inl h
          · exact .inr (.inr h)
        · rintro (h' | h' | h')
          · exact .inl h'
          · subst h'; exact .inl h
          · exact .inr h'
      · intro x
        rw [b, List.mem_cons]
        constructor
        · rintro (h | h)
          · exact .inl h
          · exact .inr ⟨.inr h.1, h.2⟩
        · rintro (h' | ⟨h' | h', hn⟩)
          · exact .inl h'
          · subst h'; exact absurd h hn
          · exact .inr ⟨h', hn⟩
    · rw [if_neg h]
      obtain ⟨a, b, c⟩ := ih (w :: s.1, w :: s.2)
      refine ⟨?_, ?_, ?_⟩
      · intro x
        rw [a]
        simp only [List.mem_cons]
        constructor
        · rintro ((h | h) | h)
          · exact .inr (.inl h)
          · exact .inl h
          · exact .inr (.inr h)
        · rintro (h | h | h)
          · exact .inl (.inr h)
          · exact .inl (.inl h)
          · exact .inr h
      · intro x
        rw [b]
        simp only [List.mem_cons, not_or]
        constructor
        · rintro ((h' | h') | ⟨h', hn⟩)
          · subst h'; exact .inr ⟨.inl rfl, h⟩
          · exact .inl h'
          · exact .inr ⟨.inr h', hn.2⟩
        · rintro (h' | ⟨h' | h', hn⟩)
          · exact .inl (.inr h')
          · exact .inl (.inl h')
          · by_cases e : x = w
            · exact .inl (.inl e)
            · exact .inr ⟨h', e, hn⟩
      · intro nn hw
        have := c nn fun x hx => hw x (by simp [hx])
        have h2 := unseen_lt (nn := nn) (p := fun x => x ∈ s.1) (q := fun x => x ∈ w :: s.1)
          (fun i hi => by simp [hi]) (hw w (by simp)) (by simp) h
        simp only [List.length_cons] at this
        omega

theorem reachLoop_sound {E : List (Nat × Nat)} {src dst : Nat} : ∀ (f : Nat) (s : List Nat × List Nat),
    (∀ x ∈ s.2, Reach E src x) → reachLoop E dst f s = true → Reach E src dst := by
  intro f
  induction f with
  | zero => intro s _ h; cases h
  | succ f ih =>
    intro s hs h
    simp only [reachLoop] at h
    cases e : s.2 with
    | nil => rw [e] at h; cases h
    | cons u stack =>
      rw [e] at h
      simp only at h
      split at h
      · next hu => subst hu; exact hs u (by simp [e])
      · refine ih _ ?_ h
        intro x hx
        rw [(pushNew_spec _ _).2.1] at hx
        rcases hx with hx | hx
        · exact hs x (by rw [e]; exact List.mem_cons_of_mem _ hx)
        · exact (hs u (by simp [e])).tail (mem_adj.1 hx.1)

theorem reachLoop_complete {E : List (Nat × Nat)} {nn src dst : Nat} (hE : EdgesIn E nn)
    (hr : Reach E src dst) : ∀ (f : Nat) (s : List Nat × List Nat),
    s.2.length + unseen nn (fun x => x ∈ s.1) < f → src ∈ s.1 →
    (∀ x ∈ s.1, x ∈ s.2 ∨ (x ≠ dst ∧ ∀ w, (x, w) ∈ E → w ∈ s.1)) → reachLoop E dst f s = true := by
  intro f
  induction f with
  | zero => intro s h; omega
  | succ f ih =>
    intro s hm hsrc hc
    simp only [reachLoop]
    cases e : s.2 with
    | nil =>
      exfalso
      have hcl : ∀ x ∈ s.1, x ≠ dst ∧ ∀ w, (x, w) ∈ E → w ∈ s.1 := by
        intro x hx
        rcases hc x hx with h | h
        · rw [e] at h; cases h
        · exact h
      have hb : ∀ y, Reach E src y → y ∈ s.1 := by
        intro y hy
        induction hy with
        | refl => exact hsrc
        | tail _ h ih2 => exact (hcl _ ih2).2 _ h
      exact (hcl dst (hb dst hr)).1 rfl
    | cons u stack =>
      simp only
      by_cases hu : u = dst
      · rw [if_pos hu]
      · rw [if_neg hu]
        obtain ⟨a, b, c⟩ := pushNew_spec (adj E u) (s.1, stack)
        have hm' := c nn (fun w hw => (hE _ (mem_adj.1 hw)).2)
        rw [e] at hm
        simp only [List.length_cons] at hm hm'
        refine ih _ (by omega) ((a src).2 (.inl hsrc)) ?_
        intro x hx
        rw [a] at hx
        rw [b]
        simp only
        by_cases hx1 : x ∈ s.1
        · rcases hc x hx1 with h | ⟨h1, h2⟩
          · rw [e] at h
            rcases List.mem_cons.1 h with ex | h
            · subst ex
              exact .inr ⟨hu, fun w hw => (a w).2 (.inr (mem_adj.2 hw))⟩
            · exact .inl (.inl h)
          · exact .inr ⟨h1, fun w hw => (a w).2 (.inl (h2 w hw))⟩
        · rcases hx with hx | hx
          · exact absurd hx hx1
          · exact .inl (.inr ⟨hx, hx1⟩)

theorem reaches_iff {E : List (Nat × Nat)} {nn src dst : Nat} (hE : EdgesIn E nn) (hs : src < nn) :
    reaches E nn src dst = true ↔ Reach E src dst := by
  unfold reaches
  rw [Bool.or_eq_true, decide_eq_true_eq]
  constructor
  · rintro (h | h)
    · exact reachLoop_sound _ _ (by intro x hx; rw [List.mem_singleton.1 hx]) h
    · subst h; exact .refl
  · intro h
    left
    refine reachLoop_complete hE h _ _ ?_ (by simp) (by simp)
    have := unseen_lt (nn := nn) (p := fun _ => False) (q := fun x => x ∈ [src]) (fun i hi => hi.elim) hs (by simp) id
    have h2 := unseen_le nn (fun _ => False)
    simp only [List.length_singleton]
    omega

/-! ## The implication graph -/

theorem negNode_node (v : Nat) (b : Bool) : negNode (node ⟨v, b⟩) = node ⟨v, !b⟩ := by
  cases b
  · show (2 * v + 0) ^^^ 1 = 2 * v + 1
    have h1 := Nat.xor_div_two (a := 2 * v + 0) (b := 1)
    have h2 := Nat.xor_mod_two_eq_one (a := 2 * v + 0) (b := 1)
    rw [show (2 * v + 0) / 2 = v by omega, show (1 : Nat) / 2 = 0 by rfl, Nat.xor_zero] at h1
    have h3 : (2 * v + 0 ^^^ 1) % 2 = 1 := h2.2 (by omega)
    omega
  · show (2 * v + 1) ^^^ 1 = 2 * v + 0
    have h1 := Nat.xor_div_two (a := 2 * v + 1) (b := 1)
    have h2 := Nat.xor_mod_two_eq_one (a := 2 * v + 1) (b := 1)
    rw [show (2 * v + 1) / 2 = v by omega, show (1 : Nat) / 2 = 0 by rfl, Nat.xor_zero] at h1
    have h3 : ¬ (2 * v + 1 ^^^ 1) % 2 = 1 := fun h => h2.1 h (by omega)
    omega

theorem node_lt {l : Lit} {n : Nat} (h : l.var < n) : node l < 2 * n := by
  unfold node
  cases l.pos <;> simp <;> omega

theorem mem_edges {cs : List (Lit × Lit)} {n : Nat} {e : Nat × Nat} : e ∈ edges cs n ↔
    ∃ c ∈ cs, c.1.var < n ∧ c.2.var < n ∧
      (e = (node ⟨c.1.var, !c.1.pos⟩, node c.2) ∨ e = (node ⟨c.2.var, !c.2.pos⟩, node c.1)) := by
  unfold edges
  rw [List.mem_flatMap]
  constructor
  · rintro ⟨c, hc, he⟩
    unfold clauseEdges at he
    split at he
    · cases he
    · next h =>
      simp only [List.mem_cons, List.not_mem_nil, or_false] at he
      have h1 := negNode_node c.1.var c.1.pos
      have h2 := negNode_node c.2.var c.2.pos
      refine ⟨c, hc, by omega, by omega, ?_⟩
      rw [← h1, ← h2]
      exact he
  · rintro ⟨c, hc, h1, h2, he⟩
    refine ⟨c, hc, ?_⟩
    unfold clauseEdges
    rw [if_neg (by omega)]
    have h1 := negNode_node c.1.var c.1.pos
    have h2 := negNode_node c.2.var c.2.pos
    rw [← h1, ← h2] at he
    simpa using he

theorem edges_in (cs : List (Lit × Lit)) (n : Nat) : EdgesIn (edges cs n) (2 * n) := by
  intro e he
  obtain ⟨c, _, h1, h2, h | h⟩ := mem_edges.1 he
  · subst h; exact ⟨node_lt h1, node_lt h2⟩
  · subst h; exact ⟨node_lt h2, node_lt h1⟩

/-- A node of the graph under an assignment. -/
def nodeTrue (σ : Nat → Bool) (k : Nat) : Prop := σ (k / 2) = decide (k % 2 = 1)

theorem nodeTrue_node (σ : Nat → Bool) (l : Lit) : nodeTrue σ (node l) ↔ l.True σ := by
  obtain ⟨v, b⟩ := l
  cases b
  · show σ ((2 * v + 0) / 2) = decide ((2 * v + 0) % 2 = 1) ↔ σ v = false
    have h1 : (2 * v + 0) / 2 = v := by omega
    have h2 : ¬ (2 * v + 0) % 2 = 1 := by omega
    rw [h1, decide_eq_false h2]
  · show σ ((2 * v + 1) / 2) = decide ((2 * v + 1) % 2 = 1) ↔ σ v = true
    have h1 : (2 * v + 1) / 2 = v := by omega
    have h2 : (2 * v + 1) % 2 = 1 := by omega
    rw [h1, decide_eq_true h2]

theorem edge_true {cs : List (Lit × Lit)} {n : Nat} {σ : Nat → Bool} (hm : Model cs σ) {u w : Nat}
    (h : (u, w) ∈ edges cs n) (hu : nodeTrue σ u) : nodeTrue σ w := by
  obtain ⟨c, hc, _, _, e | e⟩ := mem_edges.1 h
  · cases e
    rw [nodeTrue_node] at hu ⊢
    rcases hm c hc with h | h
    · unfold Lit.True at h hu
      rw [h] at hu
      simp at hu
    · exact h
  · cases e
    rw [nodeTrue_node] at hu ⊢
    rcases hm c hc with h | h
    · exact h
    · unfold Lit.True at h hu
      rw [h] at hu
      simp at hu

theorem reach_true {cs : List (Lit × Lit)} {n : Nat} {σ : Nat → Bool} (hm : Model cs σ) {u w : Nat}
    (h : Reach (edges cs n) u w) (hu : nodeTrue σ u) : nodeTrue σ w := by
  induction h with
  | refl => exact hu
  | tail _ h ih => exact edge_true hm h ih

end Verif.Solve.Two
