/-!
# `HMap`: the model of Rust's `HashMap`

A `HashMap<K, V>` is modelled by its list of entries with pairwise distinct keys.  The order of the
list is the iteration order; since Rust promises no order, every theorem is stated for all lists, and
so holds whatever the order is.  Two maps are equal in the sense of Rust's `==` when they give the same
answer to every lookup (`HMap.Same`).
-/
namespace Verif

/-- `std::collections::HashMap<K, V>`: entries with distinct keys, in iteration order. -/
structure HMap (K V : Type) where
  entries : List (K × V)
  nodup : (entries.map Prod.fst).Nodup

namespace HMap
variable {K V W : Type} [DecidableEq K]

/-- `HashMap::new()`. -/
def empty : HMap K V := ⟨[], by simp⟩

/-- lookup in an entry list. -/
def lookup (k : K) : List (K × V) → Option V
  | [] => none
  | (k', v) :: t => if k' = k then some v else lookup k t

/-- `map.get(&k)`. -/
def get? (m : HMap K V) (k : K) : Option V := lookup k m.entries

/-- `*map.get(&k).unwrap_or(&d)`. -/
def getD (m : HMap K V) (k : K) (d : V) : V := (m.get? k).getD d

/-- `map.contains_key(&k)`. -/
def contains (m : HMap K V) (k : K) : Bool := (m.get? k).isSome

/-- Overwrite in place, or append at the end. -/
def insertList (k : K) (v : V) : List (K × V) → List (K × V)
  | [] => [(k, v)]
  | (k', v') :: t => if k' = k then (k, v) :: t else (k', v') :: insertList k v t

theorem mem_keys_insertList {k a : K} {v : V} {l : List (K × V)} :
    a ∈ (insertList k v l).map Prod.fst ↔ a = k ∨ a ∈ l.map Prod.fst := by
  induction l with
  | nil => simp [insertList]
  | cons h t ih =>
    obtain ⟨k', v'⟩ := h
    by_cases e : k' = k
    · subst e; simp [insertList]
    · simp only [insertList, e, if_false, List.map_cons, List.mem_cons, ih]
      constructor
      · rintro (h | h | h) <;> simp [h]
      · rintro (h | h | h) <;> simp [h]

theorem nodup_insertList {k : K} {v : V} {l : List (K × V)} (h : (l.map Prod.fst).Nodup) :
    ((insertList k v l).map Prod.fst).Nodup := by
  induction l with
  | nil => simp [insertList]
  | cons hd t ih =>
    obtain ⟨k', v'⟩ := hd
    rw [List.map_cons, List.nodup_cons] at h
    by_cases e : k' = k
    · subst e; simp only [insertList, if_true, List.map_cons, List.nodup_cons]; exact h
    · simp only [insertList, e, if_false, List.map_cons, List.nodup_cons]
      refine ⟨?_, ih h.2⟩
      rw [mem_keys_insertList]
      rintro (h' | h')
      · exact e h'
      · exact h.1 h'

/-- `map.insert(k, v)`. -/
def insert (m : HMap K V) (k : K) (v : V) : HMap K V :=
  ⟨insertList k v m.entries, nodup_insertList m.nodup⟩

/-- `let e = map.entry(k).or_insert(d); *e = f(*e)`. -/
def upsert (m : HMap K V) (k : K) (d : V) (f : V → V) : HMap K V :=
  m.insert k (f (m.getD k d))

/-- `map.retain(|k, v| p(k, v))`. -/
def retain (m : HMap K V) (p : K → V → Bool) : HMap K V :=
  ⟨m.entries.filter (fun e => p e.1 e.2),
   List.Nodup.sublist (List.Sublist.map _ List.filter_sublist) m.nodup⟩

/-- `map.remove(&k)`. -/
def erase (m : HMap K V) (k : K) : HMap K V := m.retain (fun k' _ => decide (k' ≠ k))

/-- `for (k, v) in &map { acc = f(acc, k, v) }`. -/
def fold {A : Type} (m : HMap K V) (init : A) (f : A → K → V → A) : A :=
  m.entries.foldl (fun a e => f a e.1 e.2) init

/-- `map.keys()`. -/
def keys (m : HMap K V) : List K := m.entries.map Prod.fst

/-- `map.values()`. -/
def values (m : HMap K V) : List V := m.entries.map Prod.snd

/-- `a == b` on `HashMap`s: the same answers to every lookup. -/
def Same (a b : HMap K V) : Prop := ∀ k, a.get? k = b.get? k

theorem lookup_insertList (k a : K) (v : V) (l : List (K × V)) :
    lookup a (insertList k v l) = if a = k then some v else lookup a l := by
  induction l with
  | nil =>
    by_cases h : a = k
    · subst h; simp [insertList, lookup]
    · have : ¬ k = a := fun e => h e.symm
      simp [insertList, lookup, h, this]
  | cons hd t ih =>
    obtain ⟨k', v'⟩ := hd
    by_cases e : k' = k
    · subst e
      by_cases h : a = k'
      · subst h; simp [insertList, lookup]
      · have : ¬ k' = a := fun e => h e.symm
        simp [insertList, lookup, h, this]
    · simp only [insertList, e, if_false, lookup, ih]
      by_cases h : a = k
      · subst h; simp [e]
      · simp [h]

@[simp] theorem get?_empty (k : K) : (empty : HMap K V).get? k = none := rfl
@[simp] theorem getD_empty (k : K) (d : V) : (empty : HMap K V).getD k d = d := rfl

theorem get?_insert (m : HMap K V) (k a : K) (v : V) :
    (m.insert k v).get? a = if a = k then some v else m.get? a := lookup_insertList ..

theorem getD_insert (m : HMap K V) (k a : K) (v d : V) :
    (m.insert k v).getD a d = if a = k then v else m.getD a d := by
  simp only [getD, get?_insert]; split <;> rfl

theorem get?_upsert (m : HMap K V) (k a : K) (d : V) (f : V → V) :
    (m.upsert k d f).get? a = if a = k then some (f (m.getD k d)) else m.get? a := get?_insert ..

theorem getD_upsert (m : HMap K V) (k a : K) (d : V) (f : V → V) :
    (m.upsert k d f).getD a d = if a = k then f (m.getD a d) else m.getD a d := by
  rw [upsert, getD_insert]; split
  · next h => rw [h]
  · rfl

theorem lookup_isSome {k : K} {l : List (K × V)} :
    (lookup k l).isSome = true ↔ k ∈ l.map Prod.fst := by
  induction l with
  | nil => simp [lookup]
  | cons hd t ih =>
    obtain ⟨k', v'⟩ := hd
    simp only [lookup]
    split
    · next h => simp [h]
    · next h => simp only [ih, List.map_cons, List.mem_cons, iff_or_self]; exact fun e => absurd e.symm h

theorem lookup_eq_some {k : K} {v : V} {l : List (K × V)} (nd : (l.map Prod.fst).Nodup) :
    lookup k l = some v ↔ (k, v) ∈ l := by
  induction l with
  | nil => simp [lookup]
  | cons hd t ih =>
    obtain ⟨k', v'⟩ := hd
    rw [List.map_cons, List.nodup_cons] at nd
    simp only [lookup]
    split
    · next h =>
      subst h
      constructor
      · intro h; cases h; simp
      · intro h
        rcases List.mem_cons.1 h with h | h
        · cases h; rfl
        · exact absurd (List.mem_map.2 ⟨_, h, rfl⟩) nd.1
    · next h =>
      rw [ih nd.2, List.mem_cons]
      constructor
      · exact Or.inr
      · rintro (h' | h')
        · cases h'; exact absurd rfl h
        · exact h'

theorem get?_eq_some {m : HMap K V} {k : K} {v : V} : m.get? k = some v ↔ (k, v) ∈ m.entries :=
  lookup_eq_some m.nodup

theorem mem_keys {m : HMap K V} {k : K} : k ∈ m.keys ↔ (m.get? k).isSome = true := by
  rw [get?, lookup_isSome]; rfl

theorem get?_eq_none {m : HMap K V} {k : K} : m.get? k = none ↔ k ∉ m.keys := by
  rw [mem_keys]; cases m.get? k <;> simp

theorem get?_retain (m : HMap K V) (p : K → V → Bool) (k : K) :
    (m.retain p).get? k = (m.get? k).filter (p k) := by
  cases h : m.get? k with
  | none =>
    rw [get?_eq_none] at h
    simp only [Option.filter_none]
    rw [get?_eq_none]
    intro hk
    apply h
    obtain ⟨e, he, rfl⟩ := List.mem_map.1 hk
    exact List.mem_map.2 ⟨e, (List.mem_filter.1 he).1, rfl⟩
  | some v =>
    rw [get?_eq_some] at h
    by_cases hp : p k v = true
    · rw [Option.filter_some, if_pos hp, get?_eq_some]
      exact List.mem_filter.2 ⟨h, hp⟩
    · rw [Option.filter_some, if_neg hp, get?_eq_none]
      intro hk
      obtain ⟨e, he, hek⟩ := List.mem_map.1 hk
      obtain ⟨h1, h2⟩ := List.mem_filter.1 he
      obtain ⟨k', v'⟩ := e
      simp only at hek h2
      subst hek
      have e1 := (get?_eq_some (m := m)).2 h
      have e2 := (get?_eq_some (m := m)).2 h1
      rw [e1] at e2
      cases e2
      exact hp h2

theorem get?_erase (m : HMap K V) (k a : K) :
    (m.erase k).get? a = if a = k then none else m.get? a := by
  rw [erase, get?_retain]
  by_cases h : a = k
  · subst h; cases m.get? a <;> simp [Option.filter]
  · cases m.get? a <;> simp [h, Option.filter]

/-- Induction on the entries of the map being iterated. -/
theorem fold_upsert_getD (m a : HMap K V) (d : V) (g : V → V → V) (k : K) :
    ((m.fold a (fun acc k v => acc.upsert k d (fun x => g x v))).getD k d) =
      match m.get? k with
      | none => a.getD k d
      | some v => g (a.getD k d) v := by
  obtain ⟨l, nd⟩ := m
  simp only [fold, get?]
  induction l generalizing a with
  | nil => rfl
  | cons hd t ih =>
    obtain ⟨k', v'⟩ := hd
    rw [List.map_cons, List.nodup_cons] at nd
    simp only [List.foldl_cons]
    rw [ih _ nd.2]
    simp only [lookup, getD_upsert]
    by_cases h : k' = k
    · subst h
      have : lookup k' t = none := by
        have := nd.1
        rw [← lookup_isSome] at this
        cases hh : lookup k' t <;> simp_all
      simp [this]
    · have h' : ¬ k = k' := fun e => h e.symm
      simp [h, h']

theorem fold_upsert_get? (m a : HMap K V) (d : V) (g : V → V → V) (k : K) :
    ((m.fold a (fun acc k v => acc.upsert k d (fun x => g x v))).get? k) =
      match m.get? k with
      | none => a.get? k
      | some v => some (g (a.getD k d) v) := by
  obtain ⟨l, nd⟩ := m
  simp only [fold, get?]
  induction l generalizing a with
  | nil => rfl
  | cons hd t ih =>
    obtain ⟨k', v'⟩ := hd
    rw [List.map_cons, List.nodup_cons] at nd
    simp only [List.foldl_cons]
    rw [ih _ nd.2]
    have hget : ∀ x, lookup x (a.upsert k' d (fun x => g x v')).entries =
        if x = k' then some (g (a.getD k' d) v') else a.get? x := fun x => get?_upsert ..
    simp only [lookup]
    by_cases h : k' = k
    · subst h
      have : lookup k' t = none := by
        have := nd.1
        rw [← lookup_isSome] at this
        cases hh : lookup k' t <;> simp_all
      simp [this, hget]
    · have h' : ¬ k = k' := fun e => h e.symm
      simp only [h, if_false]
      cases hh : lookup k t with
      | none => simp [hget, h', get?]
      | some v => simp [getD_upsert, h']

end HMap
end Verif
