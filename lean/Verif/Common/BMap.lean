/-!
# `BMap`: the model of Rust's `BTreeMap`

A `BTreeMap<K, V>` is modelled by its list of entries in iteration order, which is ascending by key.
Rust compares two such maps entry by entry in that order, so `==` is equality of the lists.
-/
namespace Verif

/-- A total order given by a boolean test, Rust's `Ord`. -/
class TOrd (K : Type) where
  lt : K → K → Bool
  irrefl : ∀ a, lt a a = false
  trans : ∀ {a b c}, lt a b = true → lt b c = true → lt a c = true
  tri : ∀ a b, lt a b = true ∨ a = b ∨ lt b a = true

/-- `i64` and `BigInt` keys. -/
instance : TOrd Int where
  lt a b := decide (a < b)
  irrefl a := by simp
  trans h1 h2 := by simp at *; omega
  tri a b := by simp; omega

/-- The lexicographic order of Rust's tuples. -/
instance {K L : Type} [DecidableEq K] [TOrd K] [TOrd L] : TOrd (K × L) where
  lt a b := TOrd.lt a.1 b.1 || (decide (a.1 = b.1) && TOrd.lt a.2 b.2)
  irrefl a := by simp [TOrd.irrefl]
  trans := by
    rintro ⟨a1, a2⟩ ⟨b1, b2⟩ ⟨c1, c2⟩ h1 h2
    simp only [Bool.or_eq_true, Bool.and_eq_true, decide_eq_true_eq] at *
    rcases h1 with h1 | ⟨rfl, h1⟩
    · rcases h2 with h2 | ⟨rfl, h2⟩
      · exact Or.inl (TOrd.trans h1 h2)
      · exact Or.inl h1
    · rcases h2 with h2 | ⟨rfl, h2⟩
      · exact Or.inl h2
      · exact Or.inr ⟨rfl, TOrd.trans h1 h2⟩
  tri := by
    rintro ⟨a1, a2⟩ ⟨b1, b2⟩
    simp only [Bool.or_eq_true, Bool.and_eq_true, decide_eq_true_eq, Prod.mk.injEq]
    rcases TOrd.tri a1 b1 with h | rfl | h
    · exact Or.inl (Or.inl h)
    · rcases TOrd.tri a2 b2 with h | rfl | h
      · exact Or.inl (Or.inr ⟨rfl, h⟩)
      · exact Or.inr (Or.inl ⟨rfl, rfl⟩)
      · exact Or.inr (Or.inr (Or.inr ⟨rfl, h⟩))
    · exact Or.inr (Or.inr (Or.inl h))

/-- The lexicographic comparison of two sequences. -/
def lexLt {K : Type} [DecidableEq K] [TOrd K] : List K → List K → Bool
  | _, [] => false
  | [], _ :: _ => true
  | a :: s, b :: t => TOrd.lt a b || (decide (a = b) && lexLt s t)

/-- The lexicographic order of Rust's sequences and maps. -/
instance {K : Type} [DecidableEq K] [TOrd K] : TOrd (List K) where
  lt := lexLt
  irrefl a := by
    induction a with
    | nil => rfl
    | cons h t ih => simp [lexLt, TOrd.irrefl, ih]
  trans := by
    intro a
    induction a with
    | nil =>
      intro b c h1 h2
      cases c with
      | nil => cases b <;> simp [lexLt] at h2
      | cons => rfl
    | cons x s ih =>
      intro b c h1 h2
      cases b with
      | nil => simp [lexLt] at h1
      | cons y t =>
        cases c with
        | nil => simp [lexLt] at h2
        | cons z u =>
          simp only [lexLt, Bool.or_eq_true, Bool.and_eq_true, decide_eq_true_eq] at *
          rcases h1 with h1 | ⟨rfl, h1⟩
          · rcases h2 with h2 | ⟨rfl, h2⟩
            · exact Or.inl (TOrd.trans h1 h2)
            · exact Or.inl h1
          · rcases h2 with h2 | ⟨rfl, h2⟩
            · exact Or.inl h2
            · exact Or.inr ⟨rfl, ih h1 h2⟩
  tri := by
    intro a
    induction a with
    | nil =>
      intro b
      cases b with
      | nil => exact Or.inr (Or.inl rfl)
      | cons => exact Or.inl rfl
    | cons x s ih =>
      intro b
      cases b with
      | nil => exact Or.inr (Or.inr rfl)
      | cons y t =>
        simp only [lexLt, Bool.or_eq_true, Bool.and_eq_true, decide_eq_true_eq, List.cons.injEq]
        rcases TOrd.tri x y with h | rfl | h
        · exact Or.inl (Or.inl h)
        · rcases ih t with h | rfl | h
          · exact Or.inl (Or.inr ⟨rfl, h⟩)
          · exact Or.inr (Or.inl ⟨rfl, rfl⟩)
          · exact Or.inr (Or.inr (Or.inr ⟨rfl, h⟩))
        · exact Or.inr (Or.inr (Or.inl h))

/-- The entries of a `BTreeMap<K, V>` in iteration order. -/
abbrev BMap (K V : Type) := List (K × V)

namespace BMap
variable {K V W : Type} [DecidableEq K] [TOrd K]

/-- `map.get(&k)`. -/
def get? (k : K) : BMap K V → Option V
  | [] => none
  | (k', v) :: t => if k' = k then some v else get? k t

/-- `map.insert(k, v)`. -/
def insert (k : K) (v : V) : BMap K V → BMap K V
  | [] => [(k, v)]
  | (k', v') :: t =>
    if k' = k then (k, v) :: t
    else if TOrd.lt k k' then (k, v) :: (k', v') :: t
    else (k', v') :: insert k v t

/-- `map.remove(&k)`. -/
def remove (k : K) (m : BMap K V) : BMap K V := m.filter (fun e => decide (e.1 ≠ k))

/-- Ascending by key, as every `BTreeMap` is. -/
def Sorted (m : BMap K V) : Prop := m.Pairwise (fun a b => TOrd.lt a.1 b.1 = true)

theorem sorted_nil : Sorted ([] : BMap K V) := List.Pairwise.nil

theorem ne_of_lt {a b : K} (h : TOrd.lt a b = true) : a ≠ b := by
  rintro rfl; rw [TOrd.irrefl] at h; cases h

theorem get?_eq_none_of_lt {k : K} {m : BMap K V}
    (h : ∀ e ∈ m, TOrd.lt k e.1 = true) : get? k m = none := by
  induction m with
  | nil => rfl
  | cons e t ih =>
    obtain ⟨k', v⟩ := e
    have h1 := h (k', v) (List.mem_cons_self ..)
    have : k' ≠ k := fun e => ne_of_lt h1 e.symm
    simp only [get?, this, if_false]
    exact ih (fun e he => h e (List.mem_cons_of_mem _ he))

theorem mem_insert {k : K} {v : V} {m : BMap K V} {e : K × V} (h : e ∈ insert k v m) :
    e = (k, v) ∨ e ∈ m := by
  induction m with
  | nil => simp [insert] at h; exact Or.inl h
  | cons a t ih =>
    obtain ⟨k', v'⟩ := a
    simp only [insert] at h
    split at h
    · rcases List.mem_cons.1 h with h | h
      · exact Or.inl h
      · exact Or.inr (List.mem_cons_of_mem _ h)
    · split at h
      · rcases List.mem_cons.1 h with h | h
        · exact Or.inl h
        · exact Or.inr h
      · rcases List.mem_cons.1 h with h | h
        · exact Or.inr (h ▸ List.mem_cons_self ..)
        · rcases ih h with h | h
          · exact Or.inl h
          · exact Or.inr (List.mem_cons_of_mem _ h)

theorem sorted_insert {k : K} {v : V} {m : BMap K V} (hm : Sorted m) : Sorted (insert k v m) := by
  induction m with
  | nil => simp [insert, Sorted]
  | cons a t ih =>
    obtain ⟨k', v'⟩ := a
    have h2 := List.pairwise_cons.1 hm
    simp only [insert]
    split
    · rename_i e; subst e
      exact List.pairwise_cons.2 ⟨h2.1, h2.2⟩
    · split
      · rename_i hl
        refine List.pairwise_cons.2 ⟨?_, hm⟩
        intro e he
        rcases List.mem_cons.1 he with rfl | he
        · exact hl
        · exact TOrd.trans hl (h2.1 e he)
      · rename_i hne hl
        refine List.pairwise_cons.2 ⟨?_, ih h2.2⟩
        intro e he
        rcases mem_insert he with rfl | he
        · rcases TOrd.tri k' k with h | h | h
          · exact h
          · exact absurd h hne
          · exact absurd h hl
        · exact h2.1 e he

theorem get?_insert {k a : K} {v : V} {m : BMap K V} (hm : Sorted m) :
    get? a (insert k v m) = if k = a then some v else get? a m := by
  induction m with
  | nil => simp [insert, get?]
  | cons e t ih =>
    obtain ⟨k', v'⟩ := e
    have h2 := List.pairwise_cons.1 hm
    simp only [insert]
    split
    · rename_i e; subst e
      by_cases h : k' = a <;> simp [get?, h]
    · split
      · by_cases h : k = a <;> simp [get?, h]
      · rename_i hne hl
        simp only [get?]
        by_cases h : k' = a
        · subst h
          have : k ≠ k' := fun e => hne e.symm
          simp [this]
        · simp only [h, if_false]; exact ih h2.2

theorem sorted_filter {p : K × V → Bool} {m : BMap K V} (hm : Sorted m) : Sorted (m.filter p) :=
  List.Pairwise.filter _ hm

theorem sorted_remove {k : K} {m : BMap K V} (hm : Sorted m) : Sorted (remove k m) :=
  sorted_filter hm

theorem get?_filter {p : K × V → Bool} {m : BMap K V} (hm : Sorted m) (a : K) :
    get? a (m.filter p) = (get? a m).bind (fun v => if p (a, v) then some v else none) := by
  induction m with
  | nil => rfl
  | cons e t ih =>
    obtain ⟨k', v'⟩ := e
    have h2 := List.pairwise_cons.1 hm
    by_cases hp : p (k', v') = true
    · simp only [List.filter, hp, get?]
      by_cases h : k' = a
      · subst h; simp [hp]
      · simp only [h, if_false]; exact ih h2.2
    · simp only [List.filter, hp, get?]
      by_cases h : k' = a
      · subst h
        simp only [if_true, Option.bind_some, hp]
        have hn : get? k' t = none := get?_eq_none_of_lt h2.1
        rw [ih h2.2, hn]; simp
      · simp only [h, if_false]; exact ih h2.2

theorem get?_remove {k a : K} {m : BMap K V} (hm : Sorted m) :
    get? a (remove k m) = if a = k then none else get? a m := by
  rw [remove, get?_filter hm]
  by_cases h : a = k
  · subst h; cases get? a m <;> simp
  · cases get? a m <;> simp [h]

theorem mem_of_get? {k : K} {v : V} {m : BMap K V} (h : get? k m = some v) : (k, v) ∈ m := by
  induction m with
  | nil => simp [get?] at h
  | cons e t ih =>
    obtain ⟨k', v'⟩ := e
    simp only [get?] at h
    split at h
    · rename_i e; subst e; cases h; exact List.mem_cons_self ..
    · exact List.mem_cons_of_mem _ (ih h)

theorem get?_of_mem {k : K} {v : V} {m : BMap K V} (hm : Sorted m) (h : (k, v) ∈ m) :
    get? k m = some v := by
  induction m with
  | nil => cases h
  | cons e t ih =>
    obtain ⟨k', v'⟩ := e
    have h2 := List.pairwise_cons.1 hm
    rcases List.mem_cons.1 h with h | h
    · cases h; simp [get?]
    · have : k' ≠ k := ne_of_lt (h2.1 _ h)
      simp only [get?, this, if_false]; exact ih h2.2 h

/-- Two maps answering every lookup alike are the same map. -/
theorem ext {m n : BMap K V} (hm : Sorted m) (hn : Sorted n)
    (h : ∀ k, get? k m = get? k n) : m = n := by
  induction m generalizing n with
  | nil =>
    cases n with
    | nil => rfl
    | cons e t => obtain ⟨k, v⟩ := e; have := h k; simp [get?] at this
  | cons a s ih =>
    obtain ⟨k, v⟩ := a
    have hs := List.pairwise_cons.1 hm
    cases n with
    | nil => have := h k; simp [get?] at this
    | cons b t =>
      obtain ⟨k', v'⟩ := b
      have ht := List.pairwise_cons.1 hn
      have hk : k = k' := by
        rcases TOrd.tri k k' with hl | e | hl
        · exfalso
          have := h k
          rw [get?_eq_none_of_lt (m := (k', v') :: t)] at this
          · simp [get?] at this
          · intro e he
            rcases List.mem_cons.1 he with rfl | he
            · exact hl
            · exact TOrd.trans hl (ht.1 e he)
        · exact e
        · exfalso
          have := h k'
          rw [get?_eq_none_of_lt (m := (k, v) :: s)] at this
          · simp [get?] at this
          · intro e he
            rcases List.mem_cons.1 he with rfl | he
            · exact hl
            · exact TOrd.trans hl (hs.1 e he)
      subst hk
      have hv : v = v' := by have := h k; simpa [get?] using this
      subst hv
      congr 1
      refine ih hs.2 ht.2 (fun a => ?_)
      by_cases e : k = a
      · subst e
        rw [get?_eq_none_of_lt hs.1, get?_eq_none_of_lt ht.1]
      · have := h a
        simpa [get?, e] using this

/-- Rewriting the values in place keeps the keys. -/
theorem sorted_mapVal {f : K → V → W} {m : BMap K V} (hm : Sorted m) :
    Sorted (m.map (fun e => (e.1, f e.1 e.2))) := by
  unfold Sorted at *
  rw [List.pairwise_map]
  exact hm

theorem get?_mapVal {f : K → V → W} {m : BMap K V} (k : K) :
    get? k (m.map (fun e => (e.1, f e.1 e.2))) = (get? k m).map (f k) := by
  induction m with
  | nil => rfl
  | cons e t ih =>
    obtain ⟨k', v'⟩ := e
    simp only [List.map_cons, get?]
    by_cases h : k' = k
    · subst h; simp
    · simp [h, ih]

end BMap
end Verif
