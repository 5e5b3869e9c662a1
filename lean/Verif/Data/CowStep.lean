import Verif.Data.CowLemmas
import Mathlib.Algebra.BigOperators.Group.Finset.Piecewise

/-! # Copy-on-write refines plain values: nested writes and all steps -/
namespace Verif.Data

/-- Writing a unique row of a unique buffer held by a variable changes nothing seen elsewhere. -/
theorem row_read {s : CowState} (w : CowWF s) {d x a k r : Nat} (hx : s.var (d + 1) x = some a)
    (h1 : s.count (d + 1) a ≤ 1) (hk : (s.buf (d + 1) a)[k]? = some r) (h2 : s.count d r ≤ 1) (l : List Nat) :
    ∀ e y b, s.var e y = some b → (e ≠ d + 1 ∨ y ≠ x) →
      readBuf (upd s.heap d ((s.heap d).set r l)) e b = readBuf s.heap e b := by
  intro e y b hy hne
  have hal : 0 < s.count (d + 1) a := live_var hx
  have hrm := List.count_pos_iff.mpr (List.mem_of_getElem? hk)
  have hxm := List.count_pos_iff.mpr (List.mem_of_getElem? (var_mem hx))
  refine read_congr s.heap _
    (fun e b => e < d ∨ (0 < s.count e b ∧ (e = d + 1 → b ≠ a) ∧ (e = d → b ≠ r))) ?_ ?_ e b ?_
  · rintro e b hq c hc
    rcases hq with hq | ⟨hq, hq1, hq2⟩
    · left; omega
    · right
      have hc' : c ∈ s.buf (e + 1) b := hc
      have h3 := List.count_pos_iff.mpr hc'
      have h4 := count_ge_cell w hq c
      refine ⟨live_cell w hq hc, ?_, ?_⟩
      · rintro rfl rfl; omega
      · rintro rfl rfl
        have := count_ge_two w (hq1 rfl) hq hal c
        omega
  · intro e b hq
    by_cases he : e = d
    · subst he
      rw [upd_same]
      have : b ≠ r := by rcases hq with hq | ⟨_, _, hq⟩; omega; exact hq rfl
      simp [List.getD_eq_getElem?_getD, List.getElem?_set_ne (Ne.symm this)]
    · rw [upd_ne _ _ _ _ he]
  · right
    have hym := List.count_pos_iff.mpr (List.mem_of_getElem? (var_mem hy))
    refine ⟨live_var hy, ?_, ?_⟩
    · rintro rfl rfl
      have h5 := count_ge_vars s (d + 1) b
      have := count_one_unique (by omega) (var_mem hy) (var_mem hx)
      rcases hne with h | h
      · exact h rfl
      · exact h this
    · rintro rfl rfl
      have := count_ge_cell w hal b
      omega

/-- The outer value after writing its row `k`. -/
theorem row_self {s : CowState} (w : CowWF s) {d x a k r : Nat} (hx : s.var (d + 1) x = some a)
    (hk : (s.buf (d + 1) a)[k]? = some r) (h2 : s.count d r ≤ 1) (l : List Nat) :
    readBuf (upd s.heap d ((s.heap d).set r l)) (d + 1) a =
      (readBuf s.heap (d + 1) a).set k (l.map (readCell s.heap d)) := by
  have hal : 0 < s.count (d + 1) a := live_var hx
  have hcnt : (s.buf (d + 1) a).count r ≤ 1 := by have := count_ge_cell w hal r; omega
  have hr : r < (s.heap d).length := w.cells d a r (List.mem_of_getElem? hk)
  have hkl : k < (s.buf (d + 1) a).length := (List.getElem?_eq_some_iff.mp hk).1
  have key : (s.buf (d + 1) a).map (readBuf (upd s.heap d ((s.heap d).set r l)) d) =
      ((s.buf (d + 1) a).map (readBuf s.heap d)).set k (l.map (readCell s.heap d)) := by
    apply List.ext_getElem?
    intro j
    rw [List.getElem?_map]
    by_cases hj : j = k
    · subst hj
      rw [List.getElem?_set_self (by simpa using hkl), hk]
      simp only [Option.map_some]
      rw [mutate_self s.heap d r hr l]
    · rw [List.getElem?_set_ne (Ne.symm hj), List.getElem?_map]
      cases hv : (s.buf (d + 1) a)[j]? with
      | none => rfl
      | some c =>
        simp only [Option.map_some, Option.some.injEq]
        have hcr : c ≠ r := by rintro rfl; exact hj (count_one_unique hcnt hv hk)
        show ((upd s.heap d ((s.heap d).set r l) d).getD c []).map _ = ((s.heap d).getD c []).map _
        rw [upd_same, getD_set_one _ _ _ _ _ hr, if_neg hcr]
        apply List.map_congr_left
        intro z _
        apply read_below
        intro e he; rw [upd_ne _ _ _ _ (by omega)]
  refine Eq.trans ?_ key
  show ((upd s.heap d ((s.heap d).set r l) (d + 1)).getD a []).map _ = _
  rw [upd_ne _ _ _ _ (by omega)]; rfl

/-- `outer[k].cow()`: nothing seen changes, and the row is its own. -/
theorem cowCell_spec {s : CowState} (w : CowWF s) {d x a k r : Nat} (hx : s.var (d + 1) x = some a)
    (hk : (s.buf (d + 1) a)[k]? = some r) :
    ∃ r', CowWF (s.cowCell d a k) ∧ (s.cowCell d a k).vars = s.vars ∧ (s.cowCell d a k).top = s.top ∧
      (s.cowCell d a k).count (d + 1) a = s.count (d + 1) a ∧
      ((s.cowCell d a k).buf (d + 1) a)[k]? = some r' ∧ (s.cowCell d a k).count d r' ≤ 1 ∧
      (s.cowCell d a k).view = s.view ∧ (∀ e, e < d → (s.cowCell d a k).heap e = s.heap e) := by
  unfold CowState.cowCell
  rw [hk]
  simp only
  have hal := var_lt w hx
  have hkl : k < (s.buf (d + 1) a).length := (List.getElem?_eq_some_iff.mp hk).1
  have hr : r < (s.heap d).length := w.cells d a r (List.mem_of_getElem? hk)
  split
  · generalize hh : upd (upd s.heap d (s.heap d ++ [s.buf d r])) (d + 1)
      ((s.heap (d + 1)).set a ((s.buf (d + 1) a).set k (s.heap d).length)) = h'
    have hh0 : h' d = s.heap d ++ [s.buf d r] := by rw [← hh, upd_ne _ _ _ _ (by omega), upd_same]
    have hh1 : h' (d + 1) = (s.heap (d + 1)).set a ((s.buf (d + 1) a).set k (s.heap d).length) := by
      rw [← hh, upd_same]
    have hh2 : ∀ e, e ≠ d → e ≠ d + 1 → h' e = s.heap e := by
      intro e h1 h2; rw [← hh, upd_ne _ _ _ _ h2, upd_ne _ _ _ _ h1]
    have hlen : ∀ e, (s.heap e).length ≤ (h' e).length := by
      intro e
      by_cases h1 : e = d
      · subst h1; rw [hh0]; simp
      · by_cases h2 : e = d + 1
        · subst h2; rw [hh1]; simp
        · rw [hh2 e h1 h2]
    have hb1 : ∀ b, (h' (d + 1)).getD b [] =
        if b = a then (s.buf (d + 1) a).set k (s.heap d).length else s.buf (d + 1) b := by
      intro b; rw [hh1, getD_set_one _ _ _ _ _ hal]; rfl
    have hb0 : ∀ b, (h' d).getD b [] = if b = (s.heap d).length then s.buf d r else s.buf d b := by
      intro b; rw [hh0, getD_append_one]; rfl
    -- reading
    have rd0 : ∀ e b, e < d → readBuf h' e b = readBuf s.heap e b := by
      intro e b he
      exact read_below s.heap h' (e + 1) (fun f hf => hh2 f (by omega) (by omega)) b
    have rdd : ∀ b, b < (s.heap d).length → readBuf h' d b = readBuf s.heap d b := by
      intro b hb
      unfold readBuf
      rw [hb0, if_neg (by omega)]
      apply List.map_congr_left
      intro c _
      exact read_below s.heap h' d (fun f hf => hh2 f (by omega) (by omega)) c
    have rdn : readBuf h' d (s.heap d).length = readBuf s.heap d r := by
      unfold readBuf
      rw [hb0, if_pos rfl]
      apply List.map_congr_left
      intro c _
      exact read_below s.heap h' d (fun f hf => hh2 f (by omega) (by omega)) c
    have rd1 : ∀ b, readBuf h' (d + 1) b = readBuf s.heap (d + 1) b := by
      intro b
      show ((h' (d + 1)).getD b []).map (readBuf h' d) = (s.buf (d + 1) b).map (readBuf s.heap d)
      rw [hb1]
      split
      · rename_i e; subst e
        apply List.ext_getElem?
        intro j
        rw [List.getElem?_map, List.getElem?_map]
        by_cases hj : j = k
        · subst hj; rw [List.getElem?_set_self hkl, hk]; simp only [Option.map_some]; rw [rdn]
        · rw [List.getElem?_set_ne (Ne.symm hj)]
          cases hv : (s.buf (d + 1) b)[j]? with
          | none => rfl
          | some c =>
            simp only [Option.map_some]
            rw [rdd c (w.cells d b c (List.mem_of_getElem? hv))]
      · apply List.map_congr_left
        intro c hc
        exact rdd c (w.cells d b c hc)
    have rd2 : ∀ g b, readBuf h' (d + 1 + g) b = readBuf s.heap (d + 1 + g) b := by
      intro g
      induction g with
      | zero => exact rd1
      | succ g ih =>
        intro b
        show ((h' (d + 1 + g + 1)).getD b []).map (readBuf h' (d + 1 + g)) =
          ((s.heap (d + 1 + g + 1)).getD b []).map (readBuf s.heap (d + 1 + g))
        rw [hh2 _ (by omega) (by omega)]
        apply List.map_congr_left
        intro c _; exact ih c
    have rd : ∀ e b, b < (s.heap e).length → readBuf h' e b = readBuf s.heap e b := by
      intro e b hb
      rcases Nat.lt_trichotomy e d with h | h | h
      · exact rd0 e b h
      · subst h; exact rdd b hb
      · obtain ⟨g, rfl⟩ : ∃ g, e = d + 1 + g := ⟨e - (d + 1), by omega⟩
        exact rd2 g b
    refine ⟨(s.heap d).length, ⟨?_, w.top, ?_⟩, rfl, rfl, ?_, ?_, ?_, ?_, ?_⟩
    · intro e b hb; exact Nat.lt_of_lt_of_le (w.vars e b hb) (hlen e)
    · intro e b c hc
      unfold CowState.buf at hc
      simp only at hc ⊢
      by_cases h1 : e + 1 = d
      · subst h1
        rw [hb0] at hc
        refine Nat.lt_of_lt_of_le ?_ (hlen e)
        split at hc
        · exact w.cells e r c hc
        · exact w.cells e b c hc
      · by_cases h2 : e = d
        · subst h2
          rw [hb1] at hc
          rw [hh0, List.length_append, List.length_singleton]
          split at hc
          · rcases List.mem_or_eq_of_mem_set hc with h | h
            · have := w.cells e a c h; omega
            · omega
          · have := w.cells e b c hc; omega
        · rw [hh2 (e + 1) h1 (by omega)] at hc
          exact Nat.lt_of_lt_of_le (w.cells e b c hc) (hlen e)
    · refine count_congr (s := s) (s' := ⟨s.top, s.vars, h'⟩) rfl _ _ ?_ ?_
      · intro e _; rfl
      · intro e he; exact hh2 e (by omega) (by omega)
    · show ((h' (d + 1)).getD a [])[k]? = _
      rw [hb1, if_pos rfl, List.getElem?_set_self hkl]
    · refine Nat.le_trans (count_le _ _ _) ?_
      simp only
      rw [fresh_vars w d, Nat.zero_add]
      have hsum : ∀ b ∈ Finset.range (h' (d + 1)).length,
          (CowState.buf ⟨s.top, s.vars, h'⟩ (d + 1) b).count (s.heap d).length ≤ if b = a then 1 else 0 := by
        intro b _
        show ((h' (d + 1)).getD b []).count _ ≤ _
        rw [hb1]
        by_cases e : b = a
        · rw [if_pos e, if_pos e, List.count_set hkl]
          have := fresh_cells w d a
          simp; omega
        · rw [if_neg e, if_neg e, fresh_cells w d b]
      refine Nat.le_trans (Finset.sum_le_sum hsum) ?_
      rw [Finset.sum_ite_eq']
      split <;> omega
    · apply view_eq rfl
      intro e y
      rw [view_get]
      simp only
      cases hv : (s.vars e)[y]? with
      | none => rfl
      | some o =>
        cases o with
        | none => rfl
        | some b => simp only [Option.map_some]; rw [rd e b (w.vars e b (List.mem_of_getElem? hv))]
    · intro e he; exact hh2 e (by omega) (by omega)
  · exact ⟨r, w, rfl, rfl, rfl, hk, by omega, rfl, fun _ _ => rfl⟩

theorem view_val_some {s : CowState} {d x a : Nat} (h : s.var d x = some a) :
    s.view.val d x = some (readBuf s.heap d a) := by rw [view_val, h]; rfl

theorem view_val_none {s : CowState} {d x : Nat} (h : s.var d x = none) : s.view.val d x = none := by
  rw [view_val, h]; rfl

/-- `set_nested` on a unique outer buffer. -/
theorem setRow_spec {s : CowState} (w : CowWF s) {d x a k i c : Nat} (hx : s.var (d + 1) x = some a)
    (h1 : s.count (d + 1) a ≤ 1) (hc : ∀ d', d = d' + 1 → c < (s.heap d').length) :
    (∀ s', s.setRow d a k i c = some s' → CowWF s') ∧
    (s.setRow d a k i c).map CowState.view =
      (nestedSet (A := Val d) (readBuf s.heap (d + 1) a) k i (readCell s.heap d c)).map
        fun g => s.view.put (d + 1) x (some g) := by
  unfold CowState.setRow
  cases hk : (s.buf (d + 1) a)[k]? with
  | none =>
    have : s.cowCell d a k = s := by unfold CowState.cowCell; rw [hk]
    have hn : nestedSet (A := Val d) ((s.buf (d + 1) a).map (readBuf s.heap d)) k i (readCell s.heap d c) = none := by
      unfold nestedSet; rw [List.getElem?_map, hk]; rfl
    rw [this, hk]
    refine ⟨fun s' h => by simp at h, ?_⟩
    show _ = Option.map _ (nestedSet (A := Val d) ((s.buf (d + 1) a).map (readBuf s.heap d)) k i (readCell s.heap d c))
    rw [hn]; rfl
  | some r =>
    obtain ⟨r', w2, v2, t2, c2, k2, u2, view2, below2⟩ := cowCell_spec w hx hk
    generalize s.cowCell d a k = s2 at *
    rw [k2]
    simp only
    have hx2 : s2.var (d + 1) x = some a := by unfold CowState.var; rw [v2]; exact hx
    have hval : readBuf s2.heap (d + 1) a = readBuf s.heap (d + 1) a := by
      have ha := view_val_some hx
      have hb := view_val_some hx2
      rw [view2] at hb; rw [ha] at hb; simpa using hb.symm
    refine ⟨fun s' h => mutate_wf w2 ?_ h, ?_⟩
    · intro d' hd' i' c' he
      rcases he with he | he
      · exact absurd he (by simp)
      · simp only [Edit.set.injEq] at he
        rw [← he.2, below2 d' (by omega)]; exact hc d' hd'
    · have hcc : readCell s2.heap d c = readCell s.heap d c := read_below _ _ _ below2 c
      have hlen : (readBuf s2.heap d r').length = (s2.buf d r').length := by unfold readBuf CowState.buf; simp
      have hn : nestedSet (A := Val d) ((s2.buf (d + 1) a).map (readBuf s2.heap d)) k i (readCell s.heap d c) =
          if i < (s2.buf d r').length then
            some (((s2.buf (d + 1) a).map (readBuf s2.heap d)).set k ((readBuf s2.heap d r').set i (readCell s.heap d c)))
          else none := by
        unfold nestedSet; rw [List.getElem?_map, k2]; simp only [Option.map_some, hlen]
      rw [← hval]
      show _ = Option.map _ (nestedSet (A := Val d) ((s2.buf (d + 1) a).map (readBuf s2.heap d)) k i (readCell s.heap d c))
      rw [hn]
      unfold CowState.mutate
      simp only [Edit.apply]
      by_cases hi : i < (s2.buf d r').length
      · rw [if_pos hi, if_pos hi]
        simp only [Option.map_some, Option.some.injEq]
        rw [← view2]
        refine congrArg some ?_
        refine view_put (s := s2) (s' := { s2 with heap := upd s2.heap d ((s2.heap d).set r' ((s2.buf d r').set i c)) })
          rfl rfl hx2 (row_read w2 hx2 (by omega) k2 u2 _) ?_
        simp only
        rw [row_self w2 hx2 k2 u2, List.map_set, hcc]; rfl
      · rw [if_neg hi, if_neg hi]; rfl

/-- Operands are in range. -/
theorem cell_lt {s : CowState} (w : CowWF s) {d c : Nat} {v : Arg} (h : s.cell d v = some c) :
    ∀ d', d = d' + 1 → c < (s.heap d').length := by
  rintro d' rfl
  cases v with
  | num n => simp [CowState.cell] at h
  | var y => exact var_lt w h

theorem eval_operand {e : Edit Arg} {e' : Edit Nat} {f : Arg → Option Nat} (h : e.eval f = some e') (i c : Nat)
    (hc : e' = .push c ∨ e' = .set i c) : ∃ v, f v = some c := by
  cases e with
  | push v =>
    simp only [Edit.eval, Option.map_eq_some_iff] at h
    obtain ⟨c', h1, rfl⟩ := h
    rcases hc with h | h
    · simp only [Edit.push.injEq] at h; subst h; exact ⟨v, h1⟩
    · simp at h
  | set j v =>
    simp only [Edit.eval, Option.map_eq_some_iff] at h
    obtain ⟨c', h1, rfl⟩ := h
    rcases hc with h | h
    · simp at h
    · simp only [Edit.set.injEq] at h; rw [← h.2]; exact ⟨v, h1⟩
  | pop => simp only [Edit.eval, Option.some.injEq] at h; subst h; simp at hc
  | remove j => simp only [Edit.eval, Option.some.injEq] at h; subst h; simp at hc
  | reverse => simp only [Edit.eval, Option.some.injEq] at h; subst h; simp at hc

theorem bring_wf {s : CowState} (w : CowWF s) {d a : Nat} (ha : a < (s.heap d).length) (hd : d ≤ s.top) :
    CowWF (s.bring d a) := by
  refine ⟨fun e b hb => ?_, fun e he => ?_, w.cells⟩
  · unfold CowState.bring at hb ⊢
    simp only at hb ⊢
    by_cases h : e = d
    · subst h; rw [upd_same] at hb
      rcases List.mem_append.mp hb with h | h
      · exact w.vars e b h
      · simp only [List.mem_singleton, Option.some.injEq] at h; omega
    · rw [upd_ne _ _ _ _ h] at hb; exact w.vars e b hb
  · unfold CowState.bring at he ⊢
    simp only at he ⊢
    rw [upd_ne _ _ _ _ (by omega)]; exact w.top e he

theorem bring_get (V : ValState) (d : Nat) (v : List (Val d)) (e y : Nat) :
    ((V.bring d v).vals e)[y]? = if h : e = d then (V.vals e ++ [some (h ▸ v)])[y]? else (V.vals e)[y]? := by
  unfold ValState.bring
  simp only
  by_cases h : e = d
  · subst h; rw [updV_same]; simp
  · rw [updV_ne _ _ _ _ h]; simp [h]

theorem bring_view (s : CowState) (d a : Nat) : (s.bring d a).view = s.view.bring d (readBuf s.heap d a) := by
  apply view_eq rfl
  intro e y
  rw [bring_get]
  unfold CowState.bring
  simp only
  by_cases h : e = d
  · subst h
    rw [upd_same]
    simp only [dite_true]
    rw [← List.getElem?_map, List.map_append]
    rfl
  · rw [upd_ne _ _ _ _ h]; simp only [h, dite_false]; rw [view_get]

theorem alloc_wf {s : CowState} (w : CowWF s) {d : Nat} {cells : List Nat} (hd : d ≤ s.top)
    (hc : ∀ d', d = d' + 1 → ∀ c ∈ cells, c < (s.heap d').length) : CowWF (s.alloc d cells) := by
  unfold CowState.alloc
  have hlen : ∀ e, (s.heap e).length ≤ (upd s.heap d (s.heap d ++ [cells]) e).length := by
    intro e
    by_cases h : e = d
    · subst h; rw [upd_same]; simp
    · rw [upd_ne _ _ _ _ h]
  refine ⟨fun e b hb => ?_, fun e he => ?_, fun e b c hcm => ?_⟩
  · simp only at hb ⊢
    by_cases h : e = d
    · subst h; rw [upd_same] at hb ⊢
      rw [List.length_append, List.length_singleton]
      rcases List.mem_append.mp hb with h | h
      · have := w.vars e b h; omega
      · simp only [List.mem_singleton, Option.some.injEq] at h; omega
    · rw [upd_ne _ _ _ _ h] at hb ⊢; exact w.vars e b hb
  · simp only at he ⊢
    rw [upd_ne _ _ _ _ (by omega)]; exact w.top e he
  · refine Nat.lt_of_lt_of_le ?_ (hlen e)
    unfold CowState.buf at hcm
    simp only at hcm
    by_cases h : e + 1 = d
    · subst h
      rw [upd_same, getD_append_one] at hcm
      split at hcm
      · exact hc e rfl c hcm
      · exact w.cells e b c hcm
    · rw [upd_ne _ _ _ _ h] at hcm; exact w.cells e b c hcm

theorem alloc_view {s : CowState} (w : CowWF s) (d : Nat) (cells : List Nat) :
    (s.alloc d cells).view = s.view.bring d (cells.map (readCell s.heap d)) := by
  apply view_eq rfl
  intro e y
  rw [bring_get]
  unfold CowState.alloc
  simp only
  have hrd : ∀ y : Nat, (s.vars e)[y]?.map (Option.map (readBuf (upd s.heap d (s.heap d ++ [cells])) e)) =
      (s.view.vals e)[y]? := by
    intro y
    rw [view_get]
    cases hv : (s.vars e)[y]? with
    | none => rfl
    | some o =>
      cases o with
      | none => rfl
      | some b =>
        simp only [Option.map_some]
        rw [append_read w d _ e b (w.vars e b (List.mem_of_getElem? hv))]
  by_cases h : e = d
  · subst h
    rw [upd_same]
    simp only [dite_true]
    have hvl : (s.view.vals e).length = (s.vars e).length := by unfold CowState.view; simp
    rcases Nat.lt_or_ge y (s.vars e).length with hy | hy
    · rw [List.getElem?_append_left hy, List.getElem?_append_left (by rw [hvl]; exact hy)]
      exact hrd y
    · rw [List.getElem?_append_right hy, List.getElem?_append_right (by rw [hvl]; exact hy), hvl]
      cases y - (s.vars e).length with
      | zero => simp only [List.getElem?_cons_zero, Option.map_some]; rw [append_read_new]
      | succ n => simp
  · rw [upd_ne _ _ _ _ h]; simp only [h, dite_false]; exact hrd y

theorem setVar_wf {s : CowState} (w : CowWF s) {d x : Nat} {o : Option Nat} (ho : ∀ a, o = some a → a < (s.heap d).length) :
    CowWF { s with vars := upd s.vars d ((s.vars d).set x o) } := by
  refine ⟨fun e b hb => ?_, fun e he => ?_, w.cells⟩
  · simp only at hb ⊢
    by_cases h : e = d
    · subst h; rw [upd_same] at hb
      rcases List.mem_or_eq_of_mem_set hb with h | h
      · exact w.vars e b h
      · exact ho b h.symm
    · rw [upd_ne _ _ _ _ h] at hb; exact w.vars e b hb
  · simp only at he ⊢
    by_cases h : e = d
    · subst h; rw [upd_same, w.top e he]; rfl
    · rw [upd_ne _ _ _ _ h]; exact w.top e he

theorem setVar_view (s : CowState) (d x : Nat) (o : Option Nat) :
    CowState.view { s with vars := upd s.vars d ((s.vars d).set x o) } = s.view.put d x (o.map (readBuf s.heap d)) := by
  apply view_eq rfl
  intro e y
  by_cases h : e = d
  · subst h
    simp only [upd_same]
    unfold ValState.put CowState.view
    simp only [updV_same]
    rw [← List.getElem?_map, List.map_set]
  · rw [put_get _ _ _ _ _ _ (Or.inl h), view_get]
    simp only; rw [upd_ne _ _ _ _ h]

/-- **One operation** on shared buffers does to what the program sees what it does to values. -/
theorem step_view {s : CowState} (w : CowWF s) (op : CowOp) :
    (∀ s', s.step op = some s' → CowWF s') ∧ (s.step op).map CowState.view = s.view.step op := by
  cases op with
  | new d =>
    simp only [CowState.step, ValState.step]
    show _ ∧ _ = if d ≤ s.top then _ else _
    by_cases h : d ≤ s.top
    · rw [if_pos h, if_pos h]
      refine ⟨?_, ?_⟩
      · rintro s' h'; simp only [Option.some.injEq] at h'; subst h'; exact alloc_wf w h (by simp)
      · simp only [Option.map_some]; rw [alloc_view w]; rfl
    · rw [if_neg h, if_neg h]; exact ⟨by simp, rfl⟩
  | copy d y =>
    simp only [CowState.step, ValState.step]
    cases hy : s.var d y with
    | none => rw [view_val_none hy]; exact ⟨by simp, rfl⟩
    | some a =>
      rw [view_val_some hy]
      refine ⟨?_, ?_⟩
      · rintro s' h'; simp only [Option.map_some, Option.some.injEq] at h'; subst h'
        exact bring_wf w (var_lt w hy) (var_top w hy)
      · simp only [Option.map_some]; rw [bring_view]
  | deep d y =>
    simp only [CowState.step, ValState.step]
    cases hy : s.var d y with
    | none => rw [view_val_none hy]; exact ⟨by simp, rfl⟩
    | some a =>
      rw [view_val_some hy]
      refine ⟨?_, ?_⟩
      · rintro s' h'; simp only [Option.map_some, Option.some.injEq] at h'; subst h'
        refine alloc_wf w (var_top w hy) ?_
        rintro d' rfl c hc; exact w.cells d' a c hc
      · simp only [Option.map_some]; rw [alloc_view w]; rfl
  | fetch d x i =>
    simp only [CowState.step, ValState.step]
    cases hx : s.var (d + 1) x with
    | none => rw [view_val_none hx]; exact ⟨by simp, rfl⟩
    | some a =>
      rw [view_val_some hx]
      simp only
      have e2 : (readBuf s.heap (d + 1) a : List (List (Val d))) = (s.buf (d + 1) a).map (readBuf s.heap d) := rfl
      have e3 : (readBuf s.heap (d + 1) a)[i]? = ((s.buf (d + 1) a)[i]?).map (readBuf s.heap d) := by
        rw [← List.getElem?_map]; rfl
      rw [e3]
      cases hi : (s.buf (d + 1) a)[i]? with
      | none => exact ⟨by simp, rfl⟩
      | some c =>
        refine ⟨?_, ?_⟩
        · rintro s' h'; simp only [Option.map_some, Option.some.injEq] at h'; subst h'
          exact bring_wf w (w.cells d a c (List.mem_of_getElem? hi)) (by have := var_top w hx; omega)
        · simp only [Option.map_some]; rw [bring_view]
  | assign d x y =>
    simp only [CowState.step, ValState.step]
    cases hy : s.var d y with
    | none => rw [view_val_none hy]; exact ⟨by simp, rfl⟩
    | some a =>
      rw [view_val_some hy]
      simp only
      have hvl : (s.view.vals d).length = (s.vars d).length := by unfold CowState.view; simp
      rw [hvl]
      by_cases h : x < (s.vars d).length
      · rw [if_pos h, if_pos h]
        refine ⟨?_, ?_⟩
        · rintro s' h'; simp only [Option.some.injEq] at h'; subst h'
          exact setVar_wf w (by rintro b hb; simp only [Option.some.injEq] at hb; subst hb; exact var_lt w hy)
        · simp only [Option.map_some]; rw [setVar_view]; rfl
      · rw [if_neg h, if_neg h]; exact ⟨by simp, rfl⟩
  | drop d x =>
    simp only [CowState.step, ValState.step]
    refine ⟨?_, ?_⟩
    · rintro s' h'; simp only [Option.some.injEq] at h'; subst h'; exact setVar_wf w (by simp)
    · simp only [Option.map_some]; rw [setVar_view]; rfl
  | edit d x e =>
    simp only [CowState.step, ValState.step]
    have harg : s.view.arg d = fun v => (s.cell d v).map (readCell s.heap d) := by funext v; exact view_arg s d v
    rw [harg, eval_map]
    cases he : e.eval (s.cell d) with
    | none => exact ⟨by simp, rfl⟩
    | some e' =>
      simp only [Option.map_some]
      unfold CowState.edit
      cases hx : s.var d x with
      | none =>
        have : s.cow d x = s := by unfold CowState.cow; rw [hx]
        rw [this, hx, view_val_none hx]; exact ⟨by simp, rfl⟩
      | some a =>
        obtain ⟨a', w1, x1, c1, v1, b1, _⟩ := cow_spec w hx
        generalize s.cow d x = s1 at *
        rw [x1]
        simp only
        have hval : s.view.val d x = some (readBuf s1.heap d a') := by rw [← v1]; exact view_val_some x1
        rw [hval]
        simp only
        refine ⟨fun s' h => mutate_wf w1 ?_ h, ?_⟩
        · intro d' hd' i c hc
          obtain ⟨v, hv⟩ := eval_operand he i c hc
          rw [b1 d' (by omega)]; exact cell_lt w hv d' hd'
        · rw [mutate_view w1 x1 c1, v1]
          have : readCell s1.heap d = readCell s.heap d := by funext c; exact read_below _ _ _ b1 c
          rw [this]
  | nested d x k i v =>
    simp only [CowState.step, ValState.step]
    rw [view_arg]
    cases hc : s.cell d v with
    | none => exact ⟨by simp, rfl⟩
    | some c =>
      simp only [Option.map_some]
      unfold CowState.setNested
      cases hx : s.var (d + 1) x with
      | none =>
        have : s.cow (d + 1) x = s := by unfold CowState.cow; rw [hx]
        rw [this, hx, view_val_none hx]; exact ⟨by simp, rfl⟩
      | some a =>
        obtain ⟨a', w1, x1, c1, v1, b1, _⟩ := cow_spec w hx
        generalize s.cow (d + 1) x = s1 at *
        rw [x1]
        simp only
        have hval : s.view.val (d + 1) x = some (readBuf s1.heap (d + 1) a') := by rw [← v1]; exact view_val_some x1
        rw [hval]
        simp only
        obtain ⟨g1, g2⟩ := setRow_spec w1 (k := k) (i := i) (c := c) x1 c1 (by
          intro d' hd'; rw [b1 d' (by omega)]; exact cell_lt w hc d' hd')
        refine ⟨g1, ?_⟩
        rw [g2, v1]
        have : readCell s1.heap d = readCell s.heap d := by
          funext c; exact read_below _ _ _ (fun e he => b1 e (by omega)) c
        rw [this]

theorem init_wf (top : Nat) : CowWF (CowState.init top) :=
  ⟨fun d a h => by simp [CowState.init] at h, fun _ _ => rfl,
   fun d b c h => by simp [CowState.init, CowState.buf] at h⟩

theorem run_view : ∀ (ops : List CowOp) (s : CowState), CowWF s →
    (∀ s', s.run ops = some s' → CowWF s') ∧ (s.run ops).map CowState.view = s.view.run ops := by
  intro ops
  induction ops with
  | nil => intro s w; exact ⟨by rintro s' h; simp only [CowState.run, Option.some.injEq] at h; subst h; exact w, rfl⟩
  | cons op rest ih =>
    intro s w
    obtain ⟨h1, h2⟩ := step_view w op
    simp only [CowState.run, ValState.run]
    rw [← h2]
    cases hs : s.step op with
    | none => exact ⟨by simp, rfl⟩
    | some s1 =>
      simp only [Option.map_some]
      exact ih s1 (h1 s1 hs)

end Verif.Data
