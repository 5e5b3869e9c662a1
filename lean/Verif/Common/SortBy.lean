/-!
# Stable sorting

`slice::sort_by` / `sort_by_key` of the Rust standard library are stable sorts. All stable sorts by the
same total preorder compute the same list; insertion sort is used because it evaluates in the kernel.
-/
namespace Verif

variable {A B : Type}

def insertBy (le : A → A → Bool) (x : A) : List A → List A
  | [] => [x]
  | y :: t => if le x y then x :: y :: t else y :: insertBy le x t

/-- stable sort: `le a b` says `a` may stand before `b` -/
def sortBy (le : A → A → Bool) : List A → List A
  | [] => []
  | x :: t => insertBy le x (sortBy le t)

theorem insertBy_perm (le : A → A → Bool) (x : A) (l : List A) : (insertBy le x l).Perm (x :: l) := by
  induction l with
  | nil => exact .refl _
  | cons y t ih =>
    rw [insertBy]
    split
    · exact .refl _
    · exact (ih.cons y).trans (.swap x y t)

theorem sortBy_perm (le : A → A → Bool) (l : List A) : (sortBy le l).Perm l := by
  induction l with
  | nil => exact .refl _
  | cons x t ih => exact (insertBy_perm le x _).trans (ih.cons x)

theorem sortBy_pairwise {le : A → A → Bool} (trans : ∀ a b c, le a b = true → le b c = true → le a c = true)
    (total : ∀ a b, le a b = true ∨ le b a = true) (l : List A) :
    (sortBy le l).Pairwise (fun a b => le a b = true) := by
  induction l with
  | nil => exact .nil
  | cons x t ih =>
    rw [sortBy]
    revert ih
    generalize sortBy le t = s
    intro ih
    induction s with
    | nil => exact .cons (by simp) .nil
    | cons y u ih2 =>
      rw [insertBy]
      rw [List.pairwise_cons] at ih
      split
      · next h =>
        refine .cons ?_ (.cons ih.1 ih.2)
        intro z hz
        rcases List.mem_cons.1 hz with rfl | hz
        · exact h
        · exact trans _ _ _ h (ih.1 z hz)
      · next h =>
        refine .cons ?_ (ih2 ih.2)
        intro z hz
        rcases List.mem_cons.1 ((insertBy_perm le x u).mem_iff.1 hz) with rfl | hz
        · exact (total y z).resolve_right h
        · exact ih.1 z hz

theorem map_sortBy {r : A → A → Bool} {s : B → B → Bool} {f : A → B} (h : ∀ a b, r a b = s (f a) (f b))
    (l : List A) : (sortBy r l).map f = sortBy s (l.map f) := by
  induction l with
  | nil => rfl
  | cons x t ih =>
    rw [sortBy, List.map_cons, sortBy, ← ih]
    generalize sortBy r t = u
    induction u with
    | nil => rfl
    | cons y u ih2 =>
      rw [insertBy, List.map_cons, insertBy, h]
      split
      · rfl
      · rw [List.map_cons, ih2]

end Verif
