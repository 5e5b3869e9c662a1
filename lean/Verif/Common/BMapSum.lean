import Verif.Common.BMap
import Mathlib.Algebra.BigOperators.Group.List.Basic
import Mathlib.Tactic.Abel
/-! # Sums over the entries of a map -/
namespace Verif.BMap
variable {K V G : Type} [DecidableEq K] [TOrd K] [AddCommGroup G]

/-- The sum of a function over the entries. -/
def total (f : K → V → G) (m : BMap K V) : G := (m.map (fun e => f e.1 e.2)).sum

@[simp] theorem total_nil (f : K → V → G) : total f [] = 0 := rfl
@[simp] theorem total_cons (f : K → V → G) (e : K × V) (m : BMap K V) :
    total f (e :: m) = f e.1 e.2 + total f m := by simp [total]

/-- What the entry at `k` contributes. -/
def part (f : K → V → G) (k : K) (m : BMap K V) : G :=
  match get? k m with
  | none => 0
  | some v => f k v

theorem total_insert (f : K → V → G) {k : K} {v : V} {m : BMap K V} (hm : Sorted m) :
    total f (insert k v m) + part f k m = total f m + f k v := by
  induction m with
  | nil => simp [insert, part, get?]
  | cons e t ih =>
    obtain ⟨k', v'⟩ := e
    have h2 := List.pairwise_cons.1 hm
    simp only [insert]
    split
    · rename_i e; subst e
      simp [part, get?]; abel
    · rename_i hne
      split
      · rename_i hl
        have : get? k t = none := get?_eq_none_of_lt (fun e he => TOrd.trans hl (h2.1 e he))
        simp [part, get?, hne, this]; abel
      · have := ih h2.2
        simp only [total_cons, part, get?, hne, if_false] at this ⊢
        rw [add_assoc, this]; abel

theorem total_filter (f : K → V → G) (p : K × V → Bool) {m : BMap K V}
    (h : ∀ e ∈ m, p e = false → f e.1 e.2 = 0) : total f (m.filter p) = total f m := by
  induction m with
  | nil => rfl
  | cons e t ih =>
    have ih := ih (fun e he => h e (List.mem_cons_of_mem _ he))
    by_cases hp : p e = true
    · rw [List.filter_cons_of_pos hp]; simp [ih]
    · rw [List.filter_cons_of_neg hp, ih, total_cons, h e (List.mem_cons_self ..) (by simpa using hp),
        zero_add]

theorem total_remove (f : K → V → G) {k : K} {m : BMap K V} (hm : Sorted m) :
    total f (remove k m) + part f k m = total f m := by
  induction m with
  | nil => simp [remove, part, get?]
  | cons e t ih =>
    obtain ⟨k', v'⟩ := e
    have h2 := List.pairwise_cons.1 hm
    by_cases h : k' = k
    · subst h
      have hn : get? k' t = none := get?_eq_none_of_lt h2.1
      have := ih h2.2
      simp only [part, hn] at this
      simp only [remove] at this ⊢
      rw [List.filter_cons_of_neg (by simp)]
      simp only [part, get?, if_true, total_cons]
      rw [add_zero] at this
      rw [this]; abel
    · have := ih h2.2
      simp only [remove] at this ⊢
      rw [List.filter_cons_of_pos (by simp [h])]
      simp only [part, get?, h, if_false, total_cons] at this ⊢
      rw [add_assoc, this]

theorem total_mapVal {W : Type} (f : K → W → G) (g : K → V → W) (m : BMap K V) :
    total f (m.map (fun e => (e.1, g e.1 e.2))) = total (fun k v => f k (g k v)) m := by
  simp [total, List.map_map, Function.comp_def]

theorem total_add (f g : K → V → G) (m : BMap K V) :
    total (fun k v => f k v + g k v) m = total f m + total g m := by
  induction m with
  | nil => simp
  | cons e t ih => simp [ih]; abel

theorem total_congr {f g : K → V → G} {m : BMap K V} (h : ∀ e ∈ m, f e.1 e.2 = g e.1 e.2) :
    total f m = total g m := by
  unfold total
  congr 1
  exact List.map_congr_left h

/-- Adding `c` to the entry at `k` (absent means `0`). -/
theorem total_bump [AddCommGroup V] (f : K → V → G) (h0 : ∀ k, f k 0 = 0)
    (hadd : ∀ k a b, f k (a + b) = f k a + f k b) {k : K} {c : V} {m : BMap K V} (hm : Sorted m) :
    total f (insert k ((get? k m).getD 0 + c) m) = total f m + f k c := by
  have := total_insert f (k := k) (v := (get? k m).getD 0 + c) hm
  cases hg : get? k m with
  | none =>
    simp only [part, hg, Option.getD_none] at this ⊢
    rw [add_zero] at this
    rw [this, zero_add]
  | some v =>
    simp only [part, hg, Option.getD_some] at this ⊢
    rw [hadd] at this
    have h2 : total f (insert k (v + c) m) + f k v = (total f m + f k c) + f k v := by
      rw [this]; abel
    exact add_right_cancel h2

end Verif.BMap
