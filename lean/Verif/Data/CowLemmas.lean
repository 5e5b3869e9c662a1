import Verif.Data.Cow

/-! # Copy-on-write refines plain values -/
namespace Verif.Data

theorem upd_same {A : Type} (f : Nat → A) (d : Nat) (v : A) : upd f d v d = v := if_pos rfl
theorem upd_ne {A : Type} (f : Nat → A) (d e : Nat) (v : A) (h : e ≠ d) : upd f d v e = f e := if_neg h

/-- All addresses are in range, and no variable is deeper than `top`. -/
structure CowWF (s : CowState) : Prop where
  vars : ∀ d a, some a ∈ s.vars d → a < (s.heap d).length
  top : ∀ d, s.top < d → s.vars d = []
  cells : ∀ d b, ∀ c ∈ s.buf (d + 1) b, c < (s.heap d).length

theorem var_mem {s : CowState} {d x a : Nat} (h : s.var d x = some a) : (s.vars d)[x]? = some (some a) := by
  unfold CowState.var at h
  cases hx : (s.vars d)[x]? with
  | none => rw [hx] at h; simp at h
  | some o => rw [hx] at h; simp only [Option.join_some] at h; rw [h]

theorem var_top {s : CowState} (w : CowWF s) {d x a : Nat} (h : s.var d x = some a) : d ≤ s.top := by
  rcases Nat.lt_or_ge s.top d with hc | hc
  · have := var_mem h; rw [w.top d hc] at this; simp at this
  · exact hc

theorem count_ge_vars (s : CowState) (d a : Nat) : (s.vars d).count (some a) ≤ s.count d a := by
  unfold CowState.count
  cases s.top - d with
  | zero => exact Nat.le_refl _
  | succ g => simp only [countG]; omega

theorem count_above {s : CowState} (w : CowWF s) {d a : Nat} (h : s.top < d) : s.count d a = 0 := by
  unfold CowState.count
  rw [show s.top - d = 0 by omega]
  simp [countG, w.top d h]

/-- Below the top, the count splits. -/
theorem count_split {s : CowState} {d : Nat} (h : d + 1 ≤ s.top) (a : Nat) :
    s.count d a = (s.vars d).count (some a) +
      ∑ b ∈ Finset.range (s.heap (d + 1)).length,
        if 0 < s.count (d + 1) b then (s.buf (d + 1) b).count a else 0 := by
  have : s.top - d = (s.top - (d + 1)) + 1 := by omega
  unfold CowState.count
  rw [this]; rfl

theorem live_le {s : CowState} (w : CowWF s) {d b : Nat} (h : 0 < s.count d b) : d ≤ s.top := by
  rcases Nat.lt_or_ge s.top d with hc | hc
  · rw [count_above w hc] at h; omega
  · exact hc

theorem buf_out (s : CowState) (d b : Nat) (h : (s.heap d).length ≤ b) : s.buf d b = [] := by
  unfold CowState.buf
  rw [List.getD_eq_getElem?_getD, List.getElem?_eq_none h]; rfl

theorem buf_lt {s : CowState} {d b c : Nat} (h : c ∈ s.buf d b) : b < (s.heap d).length := by
  rcases Nat.lt_or_ge b (s.heap d).length with hc | hc
  · exact hc
  · rw [buf_out s d b hc] at h; simp at h

/-- A live buffer's cells count. -/
theorem count_ge_cell {s : CowState} (w : CowWF s) {d b : Nat} (hb : 0 < s.count (d + 1) b) (c : Nat) :
    (s.vars d).count (some c) + (s.buf (d + 1) b).count c ≤ s.count d c := by
  rw [count_split (live_le w hb)]
  apply Nat.add_le_add_left
  rcases Nat.lt_or_ge b (s.heap (d + 1)).length with h | h
  · have := Finset.single_le_sum (f := fun b => if 0 < s.count (d + 1) b then (s.buf (d + 1) b).count c else 0)
      (fun _ _ => Nat.zero_le _) (Finset.mem_range.mpr h)
    simp only [if_pos hb] at this
    exact this
  · rw [buf_out s _ _ h]; simp

theorem count_ge_two {s : CowState} (w : CowWF s) {d b b' : Nat} (hne : b ≠ b') (hb : 0 < s.count (d + 1) b)
    (hb' : 0 < s.count (d + 1) b') (c : Nat) :
    (s.buf (d + 1) b).count c + (s.buf (d + 1) b').count c ≤ s.count d c := by
  rcases Nat.lt_or_ge b (s.heap (d + 1)).length with h | h
  · rcases Nat.lt_or_ge b' (s.heap (d + 1)).length with h' | h'
    · rw [count_split (live_le w hb)]
      have hsub : ({b, b'} : Finset Nat) ⊆ Finset.range (s.heap (d + 1)).length := by
        intro x hx; simp only [Finset.mem_insert, Finset.mem_singleton] at hx
        rw [Finset.mem_range]; rcases hx with rfl | rfl <;> assumption
      have := Finset.sum_le_sum_of_subset (f := fun b => if 0 < s.count (d + 1) b then (s.buf (d + 1) b).count c else 0) hsub
      rw [Finset.sum_pair hne] at this
      simp only [if_pos hb, if_pos hb'] at this
      omega
    · rw [buf_out s _ _ h']; have := count_ge_cell w hb c; simp; omega
  · rw [buf_out s _ _ h]; have := count_ge_cell w hb' c; simp; omega

theorem live_cell {s : CowState} (w : CowWF s) {d b c : Nat} (hb : 0 < s.count (d + 1) b)
    (hc : c ∈ s.buf (d + 1) b) : 0 < s.count d c := by
  have := count_ge_cell w hb c
  have := List.count_pos_iff.mpr hc
  omega

theorem live_var {s : CowState} {d x a : Nat} (h : s.var d x = some a) : 0 < s.count d a := by
  have := count_ge_vars s d a
  have := List.count_pos_iff.mpr (List.mem_of_getElem? (var_mem h))
  omega

/-- In a list with one occurrence, it is at one place. -/
theorem count_one_unique {A : Type} [BEq A] [LawfulBEq A] {l : List A} {a : A} (h : l.count a ≤ 1) {i j : Nat}
    (hi : l[i]? = some a) (hj : l[j]? = some a) : i = j := by
  by_contra hne
  induction l generalizing i j with
  | nil => simp at hi
  | cons b l ih =>
    rw [List.count_cons] at h
    cases i with
    | zero =>
      cases j with
      | zero => exact hne rfl
      | succ j =>
        simp only [List.getElem?_cons_zero, Option.some.injEq] at hi
        simp only [List.getElem?_cons_succ] at hj
        have := List.count_pos_iff.mpr (List.mem_of_getElem? hj)
        subst hi; simp at h; omega
    | succ i =>
      cases j with
      | zero =>
        simp only [List.getElem?_cons_zero, Option.some.injEq] at hj
        simp only [List.getElem?_cons_succ] at hi
        have := List.count_pos_iff.mpr (List.mem_of_getElem? hi)
        subst hj; simp at h; omega
      | succ j =>
        simp only [List.getElem?_cons_succ] at hi hj
        exact ih (by omega) hi hj (by omega)

/-- Reading is unaffected by changes outside a downward closed set of buffers. -/
theorem read_congr (h h' : Nat → List (List Nat)) (Q : Nat → Nat → Prop)
    (closed : ∀ d b, Q (d + 1) b → ∀ c ∈ (h (d + 1)).getD b [], Q d c)
    (same : ∀ d b, Q d b → (h' d).getD b [] = (h d).getD b []) :
    ∀ d b, Q d b → readBuf h' d b = readBuf h d b := by
  intro d
  induction d with
  | zero => intro b hq; unfold readBuf; rw [same 0 b hq]; rfl
  | succ d ih =>
    intro b hq
    unfold readBuf
    rw [same _ b hq]
    apply List.map_congr_left
    intro c hc
    exact ih c (closed d b hq c hc)

/-- Changing the contents of a unique buffer held by a variable changes nothing seen elsewhere. -/
theorem mutate_read {s : CowState} (w : CowWF s) {d x a : Nat} (hx : s.var d x = some a) (h1 : s.count d a ≤ 1)
    (l : List Nat) :
    ∀ e y b, s.var e y = some b → (e ≠ d ∨ y ≠ x) →
      readBuf (upd s.heap d ((s.heap d).set a l)) e b = readBuf s.heap e b := by
  intro e y b hy hne
  refine read_congr s.heap _ (fun e b => e < d ∨ (0 < s.count e b ∧ (e = d → b ≠ a))) ?_ ?_ e b ?_
  · rintro e b hq c hc
    rcases hq with hq | ⟨hq, hq'⟩
    · left; omega
    · right
      refine ⟨live_cell w hq hc, ?_⟩
      rintro rfl rfl
      have h2 := count_ge_cell w hq c
      have h3 := List.count_pos_iff.mpr hc
      have h4 := List.count_pos_iff.mpr (List.mem_of_getElem? (var_mem hx))
      unfold CowState.buf at h2
      omega
  · intro e b hq
    by_cases he : e = d
    · subst he
      rw [upd_same]
      have : b ≠ a := by rcases hq with hq | ⟨_, hq⟩; omega; exact hq rfl
      simp [List.getD_eq_getElem?_getD, List.getElem?_set_ne (Ne.symm this)]
    · rw [upd_ne _ _ _ _ he]
  · right
    refine ⟨live_var hy, ?_⟩
    rintro rfl rfl
    have h5 := count_ge_vars s e b
    have := count_one_unique (by omega) (var_mem hy) (var_mem hx)
    rcases hne with h | h
    · exact h rfl
    · exact h this

/-- Changing a level never affects what is read below it. -/
theorem read_below (h h' : Nat → List (List Nat)) (d : Nat) (hs : ∀ e, e < d → h' e = h e) (c : Nat) :
    readCell h' d c = readCell h d c := by
  cases d with
  | zero => rfl
  | succ d =>
    show readBuf h' d c = readBuf h d c
    refine read_congr h h' (fun e _ => e ≤ d) ?_ ?_ d c (Nat.le_refl _)
    · intro e b hq c _; omega
    · intro e b hq; rw [hs e (by omega)]

/-- Reading the changed buffer itself. -/
theorem mutate_self (h : Nat → List (List Nat)) (d a : Nat) (ha : a < (h d).length) (l : List Nat) :
    readBuf (upd h d ((h d).set a l)) d a = l.map (readCell h d) := by
  unfold readBuf
  rw [upd_same]
  rw [List.getD_eq_getElem?_getD, List.getElem?_set_self ha]
  simp only [Option.getD_some]
  apply List.map_congr_left
  intro c _
  apply read_below
  intro e he
  rw [upd_ne _ _ _ _ (by omega)]

/-- Appending buffers does not affect what is in range. -/
theorem append_read {s : CowState} (w : CowWF s) (d : Nat) (cells : List Nat) :
    ∀ e b, b < (s.heap e).length → readBuf (upd s.heap d (s.heap d ++ [cells])) e b = readBuf s.heap e b := by
  intro e b hb
  refine read_congr s.heap _ (fun e b => b < (s.heap e).length) ?_ ?_ e b hb
  · intro e b _ c hc; exact w.cells e b c hc
  · intro e b hq
    by_cases he : e = d
    · subst he; rw [upd_same]; simp only [List.getD_eq_getElem?_getD]
      rw [List.getElem?_append_left hq]
    · rw [upd_ne _ _ _ _ he]

theorem append_read_new {s : CowState} (d : Nat) (cells : List Nat) :
    readBuf (upd s.heap d (s.heap d ++ [cells])) d (s.heap d).length = cells.map (readCell s.heap d) := by
  unfold readBuf
  rw [upd_same, List.getD_eq_getElem?_getD, List.getElem?_append_right (Nat.le_refl _)]
  simp only [Nat.sub_self, List.getElem?_cons_zero, Option.getD_some]
  apply List.map_congr_left
  intro c _
  apply read_below
  intro e he
  rw [upd_ne _ _ _ _ (by omega)]

/-! ## Views -/

theorem updV_same (f : (d : Nat) → List (Option (List (Val d)))) (d : Nat) (v) : updV f d v d = v := by
  simp [updV]
theorem updV_ne (f : (d : Nat) → List (Option (List (Val d)))) (d e : Nat) (v) (h : e ≠ d) :
    updV f d v e = f e := by simp [updV, h]

theorem view_eq {s : CowState} {V : ValState} (ht : s.top = V.top)
    (h : ∀ (e y : Nat), (s.vars e)[y]?.map (Option.map (readBuf s.heap e)) = (V.vals e)[y]?) : s.view = V := by
  obtain ⟨t, vals⟩ := V
  unfold CowState.view
  simp only at ht h
  rw [ht]
  congr 1
  funext e
  apply List.ext_getElem?
  intro y
  rw [List.getElem?_map]; exact h e y

theorem view_val (s : CowState) (d x : Nat) : s.view.val d x = (s.var d x).map (readBuf s.heap d) := by
  unfold ValState.val CowState.var CowState.view
  simp only [List.getElem?_map]
  cases (s.vars d)[x]? with
  | none => rfl
  | some o => rfl

theorem view_arg (s : CowState) (d : Nat) (v : Arg) : s.view.arg d v = (s.cell d v).map (readCell s.heap d) := by
  cases d with
  | zero => cases v <;> rfl
  | succ d =>
    cases v with
    | num n => rfl
    | var y => exact view_val s d y

/-- Renaming the elements of an edit. -/
def Edit.map {A B : Type} (f : A → B) : Edit A → Edit B
  | .push c => .push (f c)
  | .set i c => .set i (f c)
  | .pop => .pop
  | .remove i => .remove i
  | .reverse => .reverse

theorem apply_map {A B : Type} (f : A → B) (e : Edit A) (l : List A) :
    (e.map f).apply (l.map f) = (e.apply l).map (List.map f) := by
  cases e with
  | push c => simp [Edit.map, Edit.apply]
  | set i c => simp only [Edit.map, Edit.apply, List.length_map]; split <;> simp [List.map_set]
  | pop => simp [Edit.map, Edit.apply, List.map_dropLast]
  | remove i => simp only [Edit.map, Edit.apply, List.length_map]; split <;> simp [List.eraseIdx_map]
  | reverse => simp [Edit.map, Edit.apply]

theorem eval_map {A B C : Type} (f : A → Option B) (g : B → C) (e : Edit A) :
    e.eval (fun a => (f a).map g) = (e.eval f).map (Edit.map g) := by
  cases e <;> simp only [Edit.eval, Option.map_some, Option.map_map] <;> rfl

/-- The elements afterwards are old ones and operands. -/
theorem apply_mem {A : Type} (P : A → Prop) (e : Edit A) (l l' : List A) (h : e.apply l = some l')
    (hl : ∀ a ∈ l, P a) (he : ∀ i c, e = .push c ∨ e = .set i c → P c) : ∀ a ∈ l', P a := by
  cases e with
  | push c =>
    simp only [Edit.apply, Option.some.injEq] at h; subst h
    intro a ha; rcases List.mem_append.mp ha with h | h
    · exact hl a h
    · rw [List.mem_singleton.mp h]; exact he 0 c (Or.inl rfl)
  | set i c =>
    simp only [Edit.apply] at h
    split at h
    · simp only [Option.some.injEq] at h; subst h
      intro a ha; rcases List.mem_or_eq_of_mem_set ha with h | h
      · exact hl a h
      · rw [h]; exact he i c (Or.inr rfl)
    · simp at h
  | pop =>
    simp only [Edit.apply, Option.some.injEq] at h; subst h
    intro a ha; exact hl a (List.dropLast_subset l ha)
  | remove i =>
    simp only [Edit.apply] at h
    split at h
    · simp only [Option.some.injEq] at h; subst h
      intro a ha; exact hl a (List.mem_of_mem_eraseIdx ha)
    · simp at h
  | reverse =>
    simp only [Edit.apply, Option.some.injEq] at h; subst h
    intro a ha; exact hl a (List.mem_reverse.mp ha)

/-! ## Counting after a change -/

theorem countG_congr {s s' : CowState} : ∀ (g d a : Nat), (∀ e, d ≤ e → s'.vars e = s.vars e) →
    (∀ e, d < e → s'.heap e = s.heap e) → countG s' g d a = countG s g d a := by
  intro g
  induction g with
  | zero => intro d a hv _; simp only [countG]; rw [hv d (Nat.le_refl _)]
  | succ g ih =>
    intro d a hv hh
    simp only [countG]
    rw [hv d (Nat.le_refl _), hh (d + 1) (by omega)]
    congr 1
    apply Finset.sum_congr rfl
    intro b _
    rw [ih (d + 1) b (fun e he => hv e (by omega)) (fun e he => hh e (by omega))]
    unfold CowState.buf
    rw [hh (d + 1) (by omega)]

theorem count_congr {s s' : CowState} (ht : s'.top = s.top) (d a : Nat) (hv : ∀ e, d ≤ e → s'.vars e = s.vars e)
    (hh : ∀ e, d < e → s'.heap e = s.heap e) : s'.count d a = s.count d a := by
  unfold CowState.count; rw [ht]; exact countG_congr _ d a hv hh

theorem count_le (s : CowState) (d a : Nat) :
    s.count d a ≤ (s.vars d).count (some a) +
      ∑ b ∈ Finset.range (s.heap (d + 1)).length, (s.buf (d + 1) b).count a := by
  unfold CowState.count
  cases s.top - d with
  | zero => simp only [countG]; omega
  | succ g =>
    simp only [countG]
    apply Nat.add_le_add_left
    apply Finset.sum_le_sum
    intro b _
    split <;> omega

theorem fresh_cells {s : CowState} (w : CowWF s) (d b : Nat) : (s.buf (d + 1) b).count (s.heap d).length = 0 := by
  rw [List.count_eq_zero]
  intro h; have := w.cells d b _ h; omega

theorem fresh_vars {s : CowState} (w : CowWF s) (d : Nat) : (s.vars d).count (some (s.heap d).length) = 0 := by
  rw [List.count_eq_zero]
  intro h; have := w.vars d _ h; omega

theorem var_lt {s : CowState} (w : CowWF s) {d x a : Nat} (h : s.var d x = some a) : a < (s.heap d).length :=
  w.vars d a (List.mem_of_getElem? (var_mem h))

theorem getD_append_one {A : Type} (l : List A) (v dflt : A) (b : Nat) :
    (l ++ [v]).getD b dflt = if b = l.length then v else l.getD b dflt := by
  simp only [List.getD_eq_getElem?_getD]
  by_cases h : b = l.length
  · subst h; simp
  · rw [if_neg h]
    rcases Nat.lt_or_ge b l.length with h' | h'
    · rw [List.getElem?_append_left h']
    · rw [List.getElem?_eq_none h', List.getElem?_eq_none (by simp; omega)]

theorem getD_set_one {A : Type} (l : List A) (v dflt : A) (i b : Nat) (hi : i < l.length) :
    (l.set i v).getD b dflt = if b = i then v else l.getD b dflt := by
  simp only [List.getD_eq_getElem?_getD]
  by_cases h : b = i
  · subst h; simp [hi]
  · rw [if_neg h, List.getElem?_set_ne (Ne.symm h)]

/-- `cow`: nothing seen changes, and the variable's buffer is its own. -/
theorem cow_spec {s : CowState} (w : CowWF s) {d x a : Nat} (hx : s.var d x = some a) :
    ∃ a', CowWF (s.cow d x) ∧ (s.cow d x).var d x = some a' ∧ (s.cow d x).count d a' ≤ 1 ∧
      (s.cow d x).view = s.view ∧ (∀ e, e < d → (s.cow d x).heap e = s.heap e) ∧
      (∀ e, e ≠ d → (s.cow d x).vars e = s.vars e) := by
  unfold CowState.cow
  rw [hx]
  simp only
  split
  · have hxl : x < (s.vars d).length := (List.getElem?_eq_some_iff.mp (var_mem hx)).1
    refine ⟨(s.heap d).length, ⟨?_, ?_, ?_⟩, ?_, ?_, ?_, ?_, ?_⟩
    · intro e b hb
      simp only at hb ⊢
      by_cases he : e = d
      · subst he
        rw [upd_same] at hb ⊢
        rw [List.length_append, List.length_singleton]
        rcases List.mem_or_eq_of_mem_set hb with h | h
        · have := w.vars e b h; omega
        · simp only [Option.some.injEq] at h; omega
      · rw [upd_ne _ _ _ _ he] at hb ⊢; exact w.vars e b hb
    · intro e he
      simp only at he ⊢
      rw [upd_ne _ _ _ _ (by have := var_top w hx; omega)]; exact w.top e he
    · intro e b c hc
      have hmem : c < (s.heap e).length := by
        unfold CowState.buf at hc
        simp only at hc
        by_cases he : e + 1 = d
        · subst he
          rw [upd_same, getD_append_one] at hc
          split at hc
          · exact w.cells e a c hc
          · exact w.cells e b c hc
        · rw [upd_ne _ _ _ _ he] at hc; exact w.cells e b c hc
      simp only
      by_cases he : e = d
      · subst he; rw [upd_same, List.length_append]; omega
      · rw [upd_ne _ _ _ _ he]; exact hmem
    · unfold CowState.var
      simp only [upd_same]
      rw [List.getElem?_set_self hxl]; rfl
    · refine Nat.le_trans (count_le _ _ _) ?_
      simp only [upd_same]
      have h1 : ((s.vars d).set x (some (s.heap d).length)).count (some (s.heap d).length) ≤ 1 := by
        rw [List.count_set hxl]
        have := fresh_vars w d
        simp; omega
      have h2 : ∑ b ∈ Finset.range (upd s.heap d (s.heap d ++ [s.buf d a]) (d + 1)).length,
          (CowState.buf { s with heap := upd s.heap d (s.heap d ++ [s.buf d a]), vars := upd s.vars d ((s.vars d).set x (some (s.heap d).length)) } (d + 1) b).count (s.heap d).length = 0 := by
        apply Finset.sum_eq_zero
        intro b _
        have := fresh_cells w d b
        unfold CowState.buf at this ⊢
        simp only
        rw [upd_ne _ _ _ _ (by omega)]
        exact this
      omega
    · apply view_eq rfl
      intro e y
      show _ = ((s.vars e).map (Option.map (readBuf s.heap e)))[y]?
      rw [List.getElem?_map]
      simp only
      have hrd : ∀ o : Option Nat, (∀ b, o = some b → some b ∈ s.vars e) →
          o.map (readBuf (upd s.heap d (s.heap d ++ [s.buf d a])) e) = o.map (readBuf s.heap e) := by
        intro o ho
        cases o with
        | none => rfl
        | some b => simp only [Option.map_some]; rw [append_read w d _ e b (w.vars e b (ho b rfl))]
      by_cases he : e = d
      · subst he
        rw [upd_same]
        by_cases hy : y = x
        · subst hy
          rw [List.getElem?_set_self hxl, var_mem hx]
          simp only [Option.map_some]
          rw [append_read_new]; rfl
        · rw [List.getElem?_set_ne (Ne.symm hy)]
          cases hv : (s.vars e)[y]? with
          | none => rfl
          | some o =>
            simp only [Option.map_some]
            rw [hrd o (by rintro b rfl; exact List.mem_of_getElem? hv)]
      · rw [upd_ne _ _ _ _ he]
        cases hv : (s.vars e)[y]? with
        | none => rfl
        | some o =>
          simp only [Option.map_some]
          rw [hrd o (by rintro b rfl; exact List.mem_of_getElem? hv)]
    · intro e he; simp only; rw [upd_ne _ _ _ _ (by omega)]
    · intro e he; simp only; rw [upd_ne _ _ _ _ he]
  · exact ⟨a, w, hx, by omega, rfl, fun _ _ => rfl, fun _ _ => rfl⟩

theorem mutate_wf {s s' : CowState} (w : CowWF s) {d a : Nat} {e : Edit Nat}
    (hc : ∀ d', d = d' + 1 → ∀ i c, e = .push c ∨ e = .set i c → c < (s.heap d').length)
    (h : s.mutate d a e = some s') : CowWF s' := by
  unfold CowState.mutate at h
  cases ha : e.apply (s.buf d a) with
  | none => simp [ha] at h
  | some l =>
    rw [ha] at h; simp only [Option.some.injEq] at h; subst h
    have hlen : ∀ f, (upd s.heap d ((s.heap d).set a l) f).length = (s.heap f).length := by
      intro f
      by_cases hf : f = d
      · subst hf; rw [upd_same]; simp
      · rw [upd_ne _ _ _ _ hf]
    refine ⟨fun f b hb => by simp only [hlen]; exact w.vars f b hb, w.top, fun f b c hcm => ?_⟩
    simp only [hlen]
    unfold CowState.buf at hcm
    simp only at hcm
    by_cases hf : f + 1 = d
    · subst hf
      rw [upd_same] at hcm
      rcases Nat.lt_or_ge a (s.heap (f + 1)).length with hal | hal
      · rw [getD_set_one _ _ _ _ _ hal] at hcm
        split at hcm
        · exact apply_mem (fun c => c < (s.heap f).length) e _ l ha (w.cells f a) (hc f rfl) c hcm
        · exact w.cells f b c hcm
      · rw [List.set_eq_of_length_le hal] at hcm; exact w.cells f b c hcm
    · rw [upd_ne _ _ _ _ hf] at hcm; exact w.cells f b c hcm

/-- The values of the view after one variable's value changed. -/
theorem put_get (V : ValState) (d x : Nat) (v : Option (List (Val d))) (e y : Nat) (hne : e ≠ d ∨ y ≠ x) :
    ((V.put d x v).vals e)[y]? = (V.vals e)[y]? := by
  unfold ValState.put
  simp only
  by_cases he : e = d
  · subst he; rw [updV_same, List.getElem?_set_ne (by rcases hne with h | h; exact absurd rfl h; exact Ne.symm h)]
  · rw [updV_ne _ _ _ _ he]

theorem put_get_self (V : ValState) (d x : Nat) (v : Option (List (Val d))) (hx : x < (V.vals d).length) :
    ((V.put d x v).vals d)[x]? = some v := by
  unfold ValState.put
  simp only
  rw [updV_same, List.getElem?_set_self hx]

theorem view_get (s : CowState) (e y : Nat) :
    (s.view.vals e)[y]? = (s.vars e)[y]?.map (Option.map (readBuf s.heap e)) := by
  unfold CowState.view; simp only [List.getElem?_map]

/-- To show that a state is viewed as `s.view` with `x` changed. -/
theorem view_put {s s' : CowState} {d x a : Nat} {v : List (Val d)} (ht : s'.top = s.top) (hv : s'.vars = s.vars)
    (hx : s.var d x = some a)
    (hother : ∀ e y b, s.var e y = some b → (e ≠ d ∨ y ≠ x) → readBuf s'.heap e b = readBuf s.heap e b)
    (hself : readBuf s'.heap d a = v) : s'.view = s.view.put d x (some v) := by
  apply view_eq ht
  intro e y
  rw [hv]
  by_cases hc : e ≠ d ∨ y ≠ x
  · rw [put_get _ _ _ _ _ _ hc, view_get]
    cases hy : (s.vars e)[y]? with
    | none => rfl
    | some o =>
      cases o with
      | none => rfl
      | some b =>
        simp only [Option.map_some]
        rw [hother e y b (by unfold CowState.var; rw [hy]; rfl) hc]
  · have h1 : e = d := by by_contra h; exact hc (Or.inl h)
    have h2 : y = x := by by_contra h; exact hc (Or.inr h)
    subst h1 h2
    have hm := var_mem hx
    rw [put_get_self _ _ _ _ (by unfold CowState.view; simp only [List.length_map]; exact (List.getElem?_eq_some_iff.mp hm).1), hm]
    simp only [Option.map_some, hself]

theorem mutate_view {s : CowState} (w : CowWF s) {d x a : Nat} (hx : s.var d x = some a) (h1 : s.count d a ≤ 1)
    (e : Edit Nat) :
    (s.mutate d a e).map CowState.view =
      ((e.map (readCell s.heap d)).apply (readBuf s.heap d a)).map fun l => s.view.put d x (some l) := by
  unfold CowState.mutate
  have : readBuf s.heap d a = (s.buf d a).map (readCell s.heap d) := rfl
  rw [this, apply_map]
  cases ha : e.apply (s.buf d a) with
  | none => rfl
  | some l =>
    simp only [Option.map_some, Option.some.injEq]
    exact view_put rfl rfl hx (mutate_read w hx h1 l) (mutate_self s.heap d a (var_lt w hx) l)

end Verif.Data
