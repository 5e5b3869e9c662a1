import Verif.Data.CowStep

/-! # C43: copy-on-write sequences behave as independent values -/
namespace Verif.Props
open Verif.Data

/-- **C43**: whatever a program does with its sequences — creating, copying, nesting, reading
elements, assigning, dropping, changing them directly or through a nested write — it sees exactly what
it would if every variable held a value of its own (`ValState.step`, where a change touches one
variable only), including which operations fail. -/
theorem C43_value_semantics (top : Nat) (ops : List CowOp) :
    ((CowState.init top).run ops).map CowState.view = (ValState.init top).run ops :=
  (run_view ops (CowState.init top) (init_wf top)).2

/-- **C43**: a change through one handle is never visible through another: after a direct or nested
change of variable `x` of level `d`, every other variable, of any level, has the value it had. -/
theorem C43_isolation (top : Nat) (ops : List CowOp) (s s' : CowState) (h : (CowState.init top).run ops = some s)
    (op : CowOp) (d x : Nat)
    (hop : (∃ e, op = .edit d x e) ∨ (∃ d' k i v, d = d' + 1 ∧ op = .nested d' x k i v))
    (hs : s.step op = some s') (e y : Nat) (hne : e ≠ d ∨ y ≠ x) : s'.view.val e y = s.view.val e y := by
  have w := (run_view ops (CowState.init top) (init_wf top)).1 s h
  have hv := (step_view w op).2
  rw [hs] at hv
  simp only [Option.map_some] at hv
  have hput : ∀ v, s.view.step op = some v → ∃ z, v = s.view.put d x z := by
    intro v hv
    rcases hop with ⟨ed, rfl⟩ | ⟨d', k, i, a, rfl, rfl⟩
    · simp only [ValState.step] at hv
      split at hv
      · simp at hv
      · split at hv
        · simp at hv
        · rw [Option.map_eq_some_iff] at hv
          obtain ⟨l, _, rfl⟩ := hv
          exact ⟨_, rfl⟩
    · simp only [ValState.step] at hv
      split at hv
      · simp at hv
      · split at hv
        · simp at hv
        · obtain ⟨l, _, hl⟩ := Option.map_eq_some_iff.mp hv
          exact ⟨_, hl.symm⟩
  obtain ⟨z, hz⟩ := hput _ hv.symm
  rw [hz]
  unfold ValState.val
  rw [put_get _ _ _ _ _ _ hne]

/-- Specification: somebody else holds a handle to the buffer `a` of level `d` that variable `x`
holds: another variable, or an element of a sequence that is itself held by someone. -/
inductive Held (s : CowState) : Nat → Nat → Prop
  | var (d x a : Nat) : (s.vars d)[x]? = some (some a) → Held s d a
  | elem (d b a : Nat) : Held s (d + 1) b → a ∈ s.buf (d + 1) b → Held s d a

/-- Somebody other than variable `x` holds it. -/
def Shared (s : CowState) (d x a : Nat) : Prop :=
  (∃ y, y ≠ x ∧ (s.vars d)[y]? = some (some a)) ∨ ∃ b, Held s (d + 1) b ∧ a ∈ s.buf (d + 1) b

theorem held_iff {s : CowState} (w : CowWF s) : ∀ (g d a : Nat), s.top - d = g → (Held s d a ↔ 0 < s.count d a) := by
  intro g
  induction g with
  | zero =>
    intro d a hg
    constructor
    · intro h
      cases h with
      | var d x a h => exact Nat.lt_of_lt_of_le (List.count_pos_iff.mpr (List.mem_of_getElem? h)) (count_ge_vars s d a)
      | elem d b a h hm =>
        exfalso
        have hno : ∀ e b, Held s e b → e ≤ s.top := by
          intro e b hh
          induction hh with
          | var d x a h =>
            rcases Nat.lt_or_ge s.top d with hc | hc
            · rw [w.top d hc] at h; simp at h
            · exact hc
          | elem d b a _ _ ih => omega
        have := hno _ _ h; omega
    · intro h
      unfold CowState.count at h
      rw [hg] at h
      simp only [countG] at h
      obtain ⟨x, hx⟩ := List.getElem?_of_mem (List.count_pos_iff.mp h)
      exact Held.var d x a hx
  | succ g ih =>
    intro d a hg
    have hd : d + 1 ≤ s.top := by omega
    have ih := fun b => ih (d + 1) b (by omega)
    constructor
    · intro h
      cases h with
      | var d x a h => exact Nat.lt_of_lt_of_le (List.count_pos_iff.mpr (List.mem_of_getElem? h)) (count_ge_vars s d a)
      | elem d b a h hm => exact live_cell w ((ih b).mp h) hm
    · intro h
      rw [count_split hd] at h
      rcases Nat.eq_zero_or_pos ((s.vars d).count (some a)) with h0 | h0
      · rw [h0, Nat.zero_add] at h
        have : ∃ b ∈ Finset.range (s.heap (d + 1)).length,
            (if 0 < s.count (d + 1) b then (s.buf (d + 1) b).count a else 0) ≠ 0 := by
          by_contra hc
          push Not at hc
          rw [Finset.sum_eq_zero hc] at h; omega
        obtain ⟨b, _, hb⟩ := this
        split at hb
        · rename_i hl
          exact Held.elem d b a ((ih b).mpr hl) (List.count_pos_iff.mp (by omega))
        · exact absurd rfl hb
      · obtain ⟨x, hx⟩ := List.getElem?_of_mem (List.count_pos_iff.mp h0)
        exact Held.var d x a hx

theorem count_two {l : List (Option Nat)} {a x : Nat} (hx : l[x]? = some (some a)) (h : 2 ≤ l.count (some a)) :
    ∃ y, y ≠ x ∧ l[y]? = some (some a) := by
  have hxl := (List.getElem?_eq_some_iff.mp hx).1
  have hxe := (List.getElem?_eq_some_iff.mp hx).2
  have : 0 < (l.set x none).count (some a) := by
    rw [List.count_set hxl, hxe]; simp; omega
  obtain ⟨y, hy⟩ := List.getElem?_of_mem (List.count_pos_iff.mp this)
  have hne : y ≠ x := by rintro rfl; rw [List.getElem?_set_self hxl] at hy; simp at hy
  rw [List.getElem?_set_ne (Ne.symm hne)] at hy
  exact ⟨y, hne, hy⟩

/-- **C43**: `cow()` copies exactly when the buffer is shared.  Without sharing it does nothing at
all; with sharing it makes one new buffer, of the variable's own level, with the same elements. -/
theorem C43_copies_iff_shared (top : Nat) (ops : List CowOp) (s : CowState)
    (h : (CowState.init top).run ops = some s) (d x a : Nat) (hx : s.var d x = some a) :
    (¬ Shared s d x a → s.cow d x = s) ∧
    (Shared s d x a → (s.cow d x).heap = upd s.heap d (s.heap d ++ [s.buf d a]) ∧
      (s.cow d x).var d x = some (s.heap d).length) := by
  have w := (run_view ops (CowState.init top) (init_wf top)).1 s h
  have hxm := var_mem hx
  have hpos := List.count_pos_iff.mpr (List.mem_of_getElem? hxm)
  have key : s.count d a > 1 ↔ Shared s d x a := by
    constructor
    · intro hc
      by_cases h2 : 2 ≤ (s.vars d).count (some a)
      · exact Or.inl (count_two hxm h2)
      · right
        have hd : d + 1 ≤ s.top := by
          by_contra hn
          unfold CowState.count at hc
          rw [show s.top - d = 0 by omega] at hc
          simp only [countG] at hc; omega
        rw [count_split hd] at hc
        have : ∃ b ∈ Finset.range (s.heap (d + 1)).length,
            (if 0 < s.count (d + 1) b then (s.buf (d + 1) b).count a else 0) ≠ 0 := by
          by_contra hn
          push Not at hn
          rw [Finset.sum_eq_zero hn] at hc; omega
        obtain ⟨b, _, hb⟩ := this
        split at hb
        · rename_i hl
          exact ⟨b, (held_iff w _ (d + 1) b rfl).mpr hl, List.count_pos_iff.mp (by omega)⟩
        · exact absurd rfl hb
    · rintro (⟨y, hy, hm⟩ | ⟨b, hb, hm⟩)
      · by_contra hc
        have := count_ge_vars s d a
        exact hy (count_one_unique (by omega) hm hxm)
      · have := count_ge_cell w ((held_iff w _ (d + 1) b rfl).mp hb) a
        have := List.count_pos_iff.mpr hm
        omega
  unfold CowState.cow
  rw [hx]
  simp only
  refine ⟨fun hn => if_neg (fun hc => hn (key.mp hc)), fun hs => ?_⟩
  rw [if_pos (key.mpr hs)]
  refine ⟨rfl, ?_⟩
  unfold CowState.var
  simp only [upd_same]
  rw [List.getElem?_set_self (List.getElem?_eq_some_iff.mp hxm).1]; rfl

/-- A grid of two aliases of one row, itself copied: a nested write through one grid is seen neither
through the other grid, nor in its own second row, nor in the row variable. -/
def cowDemo : List CowOp :=
  [.new 0, .edit 0 0 (.push (.num 5)), .new 1, .edit 1 0 (.push (.var 0)), .edit 1 0 (.push (.var 0)),
   .copy 1 0, .nested 0 0 0 0 (.num 9)]

example : ((CowState.init 1).run cowDemo).map (fun s => (s.heap 0, s.vars 0, s.heap 1, s.vars 1)) =
    some ([[5], [9]], [some 0], [[0, 0], [1, 0]], [some 1, some 0]) := by decide +kernel

example : ∃ s, (CowState.init 1).run cowDemo = some s ∧ s.view.val 0 0 = some [(5 : Nat)] ∧
    s.view.val 1 1 = some [[(5 : Nat)], [(5 : Nat)]] ∧ s.view.val 1 0 = some [[(9 : Nat)], [(5 : Nat)]] := by
  refine ⟨_, rfl, rfl, rfl, rfl⟩

end Verif.Props
