import Verif.Data.UnionFind
import Mathlib.Logic.Relation
import Mathlib.Tactic.Push
import Mathlib.Data.Finset.Card
import Mathlib.Data.Finset.Range
import Mathlib.Data.Nat.Log
import Mathlib.Data.List.GetD

/-! # Lemmas: union-find -/
namespace Verif.Data

/-- `r` is reached from `x` by following parents to a fixed point. -/
inductive Root (p : List Nat) : Nat → Nat → Prop
  | base {x} : p[x]? = some x → Root p x x
  | step {x y r} : p[x]? = some y → y ≠ x → Root p y r → Root p x r

theorem Root.isRoot {p : List Nat} {x r : Nat} (h : Root p x r) : p[r]? = some r := by
  induction h with
  | base h => exact h
  | step _ _ _ ih => exact ih

theorem Root.det {p : List Nat} {x r s : Nat} (h : Root p x r) (h' : Root p x s) : r = s := by
  induction h with
  | base h =>
    cases h' with
    | base _ => rfl
    | step h1 h2 _ => rw [h] at h1; simp at h1; exact absurd h1.symm h2
  | step h1 h2 _ ih =>
    cases h' with
    | base h => rw [h] at h1; simp at h1; exact absurd h1.symm h2
    | step h3 h4 h5 => rw [h1] at h3; simp at h3; subst h3; exact ih h5

theorem Root.lt {p : List Nat} {x r : Nat} (h : Root p x r) : x < p.length ∧ r < p.length := by
  refine ⟨?_, ?_⟩
  · cases h with
    | base h => exact (List.getElem?_eq_some_iff.mp h).1
    | step h _ _ => exact (List.getElem?_eq_some_iff.mp h).1
  · exact (List.getElem?_eq_some_iff.mp h.isRoot).1

/-- Parents are elements, and ranks grow strictly towards the root. -/
structure UFInv (u : UF) : Prop where
  len : u.rank.length = u.parent.length
  range : ∀ x y : Nat, u.parent[x]? = some y → y < u.parent.length
  mono : ∀ x y : Nat, u.parent[x]? = some y → y ≠ x → u.rank.getD x 0 < u.rank.getD y 0

theorem le_foldl_max (l : List Nat) (a : Nat) : a ≤ l.foldl max a ∧ ∀ x ∈ l, x ≤ l.foldl max a := by
  induction l generalizing a with
  | nil => simp
  | cons h t ih =>
    simp only [List.foldl_cons, List.mem_cons, forall_eq_or_imp]
    have := (ih (max a h)).1
    exact ⟨by omega, by omega, (ih _).2⟩

theorem getD_le_max (l : List Nat) (x : Nat) : l.getD x 0 ≤ l.foldl max 0 := by
  rw [List.getD_eq_getElem?_getD]
  cases h : l[x]? with
  | none => simp
  | some v => exact (le_foldl_max l 0).2 v (List.mem_of_getElem? h)

theorem set_root {p : List Nat} {x r : Nat} (h : Root p x r) {z s : Nat} (hz : Root p z s) :
    Root (p.set x r) z s := by
  by_cases hxr : x = r
  · subst hxr
    have hx := List.getElem?_eq_some_iff.mp h.isRoot
    obtain ⟨hx1, hx2⟩ := hx
    have : p.set x x = p := by
      have h9 := List.set_getElem_self hx1
      rwa [hx2] at h9
    rw [this]; exact hz
  · have hr : Root (p.set x r) r r := by
      apply Root.base; rw [List.getElem?_set_ne hxr]; exact h.isRoot
    induction hz with
    | base hb =>
      rename_i z
      by_cases e : x = z
      · subst e; exact absurd (Root.det (Root.base hb) h) hxr
      · exact Root.base (by rw [List.getElem?_set_ne e]; exact hb)
    | step hs hne hrest ih =>
      rename_i z y s
      by_cases e : x = z
      · subst e
        have : s = r := Root.det (Root.step hs hne hrest) h
        subst this
        exact Root.step (by rw [List.getElem?_set_self h.lt.1]) (Ne.symm hxr) hr
      · exact Root.step (by rw [List.getElem?_set_ne e]; exact hs) hne ih

theorem findF_spec (rank : List Nat) : ∀ (fuel : Nat) (p : List Nat) (x : Nat),
    UFInv ⟨p, rank⟩ → x < p.length → rank.foldl max 0 < fuel + rank.getD x 0 →
    ∃ r p', findF fuel p x = some (r, p') ∧ Root p x r ∧ UFInv ⟨p', rank⟩ ∧
      p'.length = p.length ∧ rank.getD x 0 ≤ rank.getD r 0 ∧
      (∀ z s, Root p z s → Root p' z s) := by
  intro fuel
  induction fuel with
  | zero => intro p x hi hx hf; have := getD_le_max rank x; omega
  | succ fuel ih =>
    intro p x hi hx hf
    have hpx : p[x]? = some p[x] := List.getElem?_eq_getElem hx
    simp only [findF, hpx]
    by_cases hne : p[x] ≠ x
    · rw [if_pos hne]
      have hm := hi.mono x _ hpx hne
      have hrg := hi.range x _ hpx
      simp only at hm hrg
      obtain ⟨r, p', h1, h2, h3, h4, h5, h6⟩ := ih p p[x] hi hrg (by omega)
      rw [h1]
      have hroot : Root p x r := Root.step hpx hne h2
      have hroot' : Root p' x r := h6 _ _ hroot
      refine ⟨r, _, rfl, hroot, ⟨?_, ?_, ?_⟩, by simp [h4], by omega, ?_⟩
      · have := h3.len; simp only [List.length_set] at *; exact this
      · intro z y hz
        simp only [List.length_set] at *
        rw [List.getElem?_set] at hz
        split at hz
        · split at hz
          · simp at hz; rw [← hz]; exact hroot'.lt.2
          · simp at hz
        · exact h3.range z y hz
      · intro z y hz hzy
        simp only at *
        rw [List.getElem?_set] at hz
        split at hz
        · split at hz
          · rename_i e _; subst e; simp at hz; rw [← hz]; omega
          · simp at hz
        · exact h3.mono z y hz hzy
      · intro z s hz
        exact set_root hroot' (h6 z s hz)
    · rw [if_neg hne]
      push Not at hne
      rw [hne] at hpx ⊢
      exact ⟨x, p, rfl, Root.base hpx, hi, rfl, Nat.le_refl _, fun _ _ h => h⟩

theorem find_spec (u : UF) (h : UFInv u) (x : Nat) (hx : x < u.parent.length) :
    ∃ r u', u.find x = some (r, u') ∧ Root u.parent x r ∧ UFInv u' ∧ u'.rank = u.rank ∧
      u'.parent.length = u.parent.length ∧ (∀ z s, Root u.parent z s → Root u'.parent z s) := by
  obtain ⟨r, p', h1, h2, h3, h4, _, h6⟩ := findF_spec u.rank (u.rank.foldl max 0 + 1) u.parent x h hx (by omega)
  exact ⟨r, ⟨p', u.rank⟩, by simp [UF.find, h1], h2, h3, rfl, h4, h6⟩

theorem root_total (u : UF) (h : UFInv u) (x : Nat) (hx : x < u.parent.length) :
    ∃ r, Root u.parent x r := by
  obtain ⟨r, _, _, h2, _⟩ := find_spec u h x hx
  exact ⟨r, h2⟩

/-- Hanging root `a` under root `b`: roots become `if root = a then b else root`. -/
theorem link_root {p : List Nat} {a b : Nat} (ha : p[a]? = some a) (hb : p[b]? = some b) (hab : a ≠ b)
    {z s : Nat} (hz : Root p z s) : Root (p.set a b) z (if s = a then b else s) := by
  have hal : a < p.length := (List.getElem?_eq_some_iff.mp ha).1
  have hbr : Root (p.set a b) b b := by
    apply Root.base; rw [List.getElem?_set_ne hab]; exact hb
  induction hz with
  | base h =>
    rename_i z
    by_cases e : a = z
    · subst e; rw [if_pos rfl]
      exact Root.step (by rw [List.getElem?_set_self hal]) (Ne.symm hab) hbr
    · rw [if_neg (Ne.symm e)]; exact Root.base (by rw [List.getElem?_set_ne e]; exact h)
  | step h hne _ ih =>
    rename_i z y s _
    have e : a ≠ z := by
      rintro rfl; rw [ha] at h; simp at h; exact hne h.symm
    exact Root.step (by rw [List.getElem?_set_ne e]; exact h) hne ih

theorem getD_set_ite (l : List Nat) (i j v : Nat) (hi : i < l.length) :
    (l.set i v).getD j 0 = if i = j then v else l.getD j 0 := by
  rw [List.getD_eq_getElem?_getD, List.getElem?_set, List.getD_eq_getElem?_getD]
  split
  · simp [hi]
  · rfl

theorem link_inv (u : UF) (h : UFInv u) (a b : Nat) (ha : u.parent[a]? = some a)
    (hb : u.parent[b]? = some b) (hab : a ≠ b) :
    ∃ u' w l, u.link a b = some u' ∧ UFInv u' ∧ u'.parent.length = u.parent.length ∧
      u'.parent = u.parent.set l w ∧ ((l = a ∧ w = b) ∨ (l = b ∧ w = a)) ∧
      u.rank.getD l 0 ≤ u.rank.getD w 0 ∧
      u'.rank = (if u.rank.getD l 0 < u.rank.getD w 0 then u.rank else u.rank.set w (u.rank.getD w 0 + 1)) := by
  have hal : a < u.parent.length := (List.getElem?_eq_some_iff.mp ha).1
  have hbl : b < u.parent.length := (List.getElem?_eq_some_iff.mp hb).1
  have hlen := h.len
  have hra : u.rank[a]? = some (u.rank.getD a 0) := by
    rw [List.getElem?_eq_getElem (by omega), List.getD_eq_getElem _ _ (by omega)]
  have hrb : u.rank[b]? = some (u.rank.getD b 0) := by
    rw [List.getElem?_eq_getElem (by omega), List.getD_eq_getElem _ _ (by omega)]
  -- hanging `l` under `w`, the rank of `w` raised if needed
  have key : ∀ l w : Nat, u.parent[l]? = some l → u.parent[w]? = some w → l ≠ w → ∀ R : List Nat,
      R.length = u.rank.length → (∀ z, u.rank.getD z 0 ≤ R.getD z 0) → (∀ z, z ≠ w → R.getD z 0 = u.rank.getD z 0) →
      u.rank.getD l 0 < R.getD w 0 → UFInv ⟨u.parent.set l w, R⟩ := by
    intro l w hl hw hlw R hRl hR1 hR2 hlt
    have hwl : w < u.parent.length := (List.getElem?_eq_some_iff.mp hw).1
    refine ⟨by simp [hRl, hlen], ?_, ?_⟩
    · intro x y hx
      simp only [List.length_set] at *
      rw [List.getElem?_set] at hx
      split at hx
      · split at hx
        · simp at hx; omega
        · simp at hx
      · exact h.range x y hx
    · intro x y hx hxy
      simp only at *
      rw [List.getElem?_set] at hx
      split at hx
      · split at hx
        · rename_i e _; subst e; simp at hx; subst hx; rw [hR2 l hlw]; exact hlt
        · simp at hx
      · have hxw : x ≠ w := by rintro rfl; rw [hw] at hx; simp at hx; exact hxy hx.symm
        rw [hR2 x hxw]
        exact Nat.lt_of_lt_of_le (h.mono x y hx hxy) (hR1 y)
  unfold UF.link
  simp only [hra, hrb]
  by_cases h1 : u.rank.getD a 0 < u.rank.getD b 0
  · rw [if_pos h1]
    exact ⟨_, b, a, rfl, key a b ha hb hab u.rank rfl (fun _ => Nat.le_refl _) (fun _ _ => rfl) h1, by simp,
      rfl, Or.inl ⟨rfl, rfl⟩, Nat.le_of_lt h1, by rw [if_pos h1]⟩
  · rw [if_neg h1]
    by_cases h2 : u.rank.getD a 0 > u.rank.getD b 0
    · rw [if_pos h2]
      exact ⟨_, a, b, rfl, key b a hb ha (Ne.symm hab) u.rank rfl (fun _ => Nat.le_refl _) (fun _ _ => rfl) h2,
        by simp, rfl, Or.inr ⟨rfl, rfl⟩, by omega, by rw [if_pos h2]⟩
    · rw [if_neg h2]
      have hset := fun z => getD_set_ite u.rank a z (u.rank.getD a 0 + 1) (by omega)
      refine ⟨_, a, b, rfl, key b a hb ha (Ne.symm hab) _ (by simp) ?_ ?_ ?_, by simp, rfl,
        Or.inr ⟨rfl, rfl⟩, by omega, by rw [if_neg (by omega)]⟩
      · intro z; rw [hset]; split
        · rename_i e; subst e; omega
        · exact Nat.le_refl _
      · intro z hz; rw [hset, if_neg (Ne.symm hz)]
      · rw [hset, if_pos rfl]; omega

/-- The elements of the class with root `r`. -/
noncomputable def cls (p : List Nat) (r : Nat) : Finset Nat := by
  classical exact (Finset.range p.length).filter fun x => Root p x r

theorem mem_cls {p : List Nat} {r x : Nat} : x ∈ cls p r ↔ Root p x r := by
  classical
  unfold cls
  rw [Finset.mem_filter, Finset.mem_range]
  exact ⟨fun h => h.2, fun h => ⟨h.lt.1, h⟩⟩

/-- A class has at least `2^rank` elements, and every rank is at most `log2 n`. -/
structure SizeInv (u : UF) : Prop where
  cls : ∀ r, u.parent[r]? = some r → 2 ^ u.rank.getD r 0 ≤ (cls u.parent r).card
  all : ∀ x, x < u.parent.length → 2 ^ u.rank.getD x 0 ≤ u.parent.length

theorem cls_card_le (p : List Nat) (r : Nat) : (cls p r).card ≤ p.length := by
  classical
  unfold cls
  exact (Finset.card_filter_le _ _).trans (by simp)

/-- Following the parents one way gives all of another table's roots: the classes are the same. -/
theorem cls_eq {u v : UF} (hu : UFInv u) (hl : v.parent.length = u.parent.length)
    (h : ∀ z s, Root u.parent z s → Root v.parent z s) (r : Nat) : cls v.parent r = cls u.parent r := by
  ext x
  rw [mem_cls, mem_cls]
  constructor
  · intro hx
    have : x < u.parent.length := by rw [← hl]; exact hx.lt.1
    obtain ⟨s, hs⟩ := root_total u hu x this
    have := Root.det (h _ _ hs) hx
    subst this; exact hs
  · exact h x r

theorem find_size (u v : UF) (hu : UFInv u) (hs : SizeInv u) (hl : v.parent.length = u.parent.length)
    (hr : v.rank = u.rank) (h : ∀ z s, Root u.parent z s → Root v.parent z s) : SizeInv v := by
  refine ⟨fun r hroot => ?_, fun x hx => ?_⟩
  · rw [cls_eq hu hl h, hr]
    apply hs.cls
    have hrl : r < u.parent.length := by rw [← hl]; exact (List.getElem?_eq_some_iff.mp hroot).1
    obtain ⟨s, hs⟩ := root_total u hu r hrl
    have := Root.det (h _ _ hs) (Root.base hroot)
    subst this; exact hs.isRoot
  · rw [hr, hl]; exact hs.all x (by omega)

theorem link_size (u v : UF) (hu : UFInv u) (hs : SizeInv u) (l w : Nat) (hl : u.parent[l]? = some l)
    (hw : u.parent[w]? = some w) (hlw : l ≠ w) (hp : v.parent = u.parent.set l w)
    (hle : u.rank.getD l 0 ≤ u.rank.getD w 0)
    (hr : v.rank = (if u.rank.getD l 0 < u.rank.getD w 0 then u.rank else u.rank.set w (u.rank.getD w 0 + 1))) :
    SizeInv v := by
  classical
  have hroot : ∀ x s, Root u.parent x s → Root v.parent x (if s = l then w else s) := by
    intro x s h; rw [hp]; exact link_root hl hw hlw h
  have hlen : v.parent.length = u.parent.length := by rw [hp]; simp
  have hww : w < u.rank.length := by rw [hu.len]; exact (List.getElem?_eq_some_iff.mp hw).1
  have hother : ∀ r, r ≠ w → r ≠ l → cls u.parent r ⊆ cls v.parent r := by
    intro r _ hrl x hx
    rw [mem_cls] at *
    have := hroot x r hx
    rwa [if_neg hrl] at this
  have hjoin : cls u.parent l ∪ cls u.parent w ⊆ cls v.parent w := by
    intro x hx
    rw [Finset.mem_union, mem_cls, mem_cls] at hx
    rw [mem_cls]
    rcases hx with hx | hx
    · have := hroot x l hx; rwa [if_pos rfl] at this
    · have := hroot x w hx; rwa [if_neg (Ne.symm hlw)] at this
  have hdis : Disjoint (cls u.parent l) (cls u.parent w) := by
    rw [Finset.disjoint_left]
    intro x h1 h2
    rw [mem_cls] at h1 h2
    exact hlw (Root.det h1 h2)
  have hcard : 2 ^ u.rank.getD l 0 + 2 ^ u.rank.getD w 0 ≤ (cls v.parent w).card := by
    have h1 := Finset.card_le_card hjoin
    rw [Finset.card_union_of_disjoint hdis] at h1
    have h2 := hs.cls l hl
    have h3 := hs.cls w hw
    omega
  have hrank : ∀ r, r ≠ w → v.rank.getD r 0 = u.rank.getD r 0 := by
    intro r hrw
    rw [hr]; split
    · rfl
    · rw [getD_set_ite _ _ _ _ hww, if_neg (Ne.symm hrw)]
  have hwc : 2 ^ v.rank.getD w 0 ≤ (cls v.parent w).card := by
    rw [hr]; split
    · exact (Nat.le_add_left _ _).trans hcard
    · have : u.rank.getD l 0 = u.rank.getD w 0 := by omega
      rw [getD_set_ite _ _ _ _ hww, if_pos rfl, Nat.pow_succ]
      rw [this] at hcard; omega
  refine ⟨fun r hroot' => ?_, fun x hx => ?_⟩
  · by_cases hrw : r = w
    · subst hrw; exact hwc
    · have hrl : r ≠ l := by
        rintro rfl
        rw [hp, List.getElem?_set_self (List.getElem?_eq_some_iff.mp hl).1] at hroot'
        simp at hroot'; exact hlw hroot'.symm
      rw [hrank r hrw]
      have : u.parent[r]? = some r := by
        rw [hp, List.getElem?_set_ne (Ne.symm hrl)] at hroot'; exact hroot'
      exact (hs.cls r this).trans (Finset.card_le_card (hother r hrw hrl))
  · by_cases hxw : x = w
    · subst hxw; exact hwc.trans (cls_card_le _ _)
    · rw [hrank x hxw, hlen]; exact hs.all x (by omega)

/-- Appending a fresh element. -/
theorem make_root {p : List Nat} {x r : Nat} (h : Root p x r) : Root (p ++ [p.length]) x r := by
  induction h with
  | base h => exact Root.base (by rw [List.getElem?_append_left (List.getElem?_eq_some_iff.mp h).1]; exact h)
  | step h hne _ ih =>
    exact Root.step (by rw [List.getElem?_append_left (List.getElem?_eq_some_iff.mp h).1]; exact h) hne ih

theorem make_inv (u : UF) (h : UFInv u) : UFInv u.makeSet.2 := by
  refine ⟨by simp [UF.makeSet, h.len], ?_, ?_⟩
  · intro x y hx
    simp only [UF.makeSet, List.length_append, List.length_singleton] at *
    rw [List.getElem?_append] at hx
    split at hx
    · have := h.range x y hx; omega
    · rename_i hge
      rw [List.getElem?_singleton] at hx
      split at hx
      · simp at hx; omega
      · simp at hx
  · intro x y hx hxy
    simp only [UF.makeSet] at *
    rw [List.getElem?_append] at hx
    split at hx
    · rename_i hlt
      have h1 := h.range x y hx
      have h2 := h.mono x y hx hxy
      rw [List.getD_append _ _ _ _ (by rw [h.len]; exact hlt), List.getD_append _ _ _ _ (by rw [h.len]; exact h1)]
      exact h2
    · rename_i hge
      rw [List.getElem?_singleton] at hx
      split at hx
      · simp at hx; omega
      · simp at hx

theorem make_size (u : UF) (hu : UFInv u) (h : SizeInv u) : SizeInv u.makeSet.2 := by
  have hrank : ∀ x, u.makeSet.2.rank.getD x 0 = u.rank.getD x 0 := by
    intro x
    simp only [UF.makeSet, List.getD_eq_getElem?_getD]
    rw [List.getElem?_append]
    split
    · rfl
    · rename_i hge
      rw [List.getElem?_singleton, List.getElem?_eq_none (by omega)]
      split <;> rfl
  have hlen : u.makeSet.2.parent.length = u.parent.length + 1 := by simp [UF.makeSet]
  refine ⟨fun r hr => ?_, fun x hx => ?_⟩
  · rw [hrank]
    by_cases hlt : r < u.parent.length
    · have hr' : u.parent[r]? = some r := by
        simp only [UF.makeSet] at hr
        rwa [List.getElem?_append_left hlt] at hr
      refine (h.cls r hr').trans (Finset.card_le_card ?_)
      intro x hx
      rw [mem_cls] at *
      exact make_root hx
    · rw [List.getD_eq_default _ _ (by rw [hu.len]; omega)]
      have : r ∈ cls u.makeSet.2.parent r := mem_cls.mpr (Root.base hr)
      have := Finset.card_pos.mpr ⟨r, this⟩
      simpa using this
  · rw [hrank, hlen]
    by_cases hlt : x < u.parent.length
    · exact (h.all x hlt).trans (by omega)
    · rw [List.getD_eq_default _ _ (by rw [hu.len]; omega)]; simp

/-- What holds of a union-find after calls that created `n` elements and united the pairs `R`. -/
structure Good (u : UF) (n : Nat) (R : List (Nat × Nat)) : Prop where
  inv : UFInv u
  size : SizeInv u
  len : u.parent.length = n
  pairs : ∀ a b, (a, b) ∈ R → a < n ∧ b < n
  sound : ∀ x y r, Root u.parent x r → Root u.parent y r →
    Relation.EqvGen (fun a b => (a, b) ∈ R) x y
  complete : ∀ a b, (a, b) ∈ R → ∃ r, Root u.parent a r ∧ Root u.parent b r

theorem good_new : Good UF.new 0 [] := by
  have hnil : ∀ x r, ¬ Root UF.new.parent x r := by
    intro x r h; have := h.lt.1; simp [UF.new] at this
  refine ⟨⟨rfl, ?_, ?_⟩, ⟨?_, ?_⟩, rfl, by simp, ?_, by simp⟩
  · intro x y h; simp [UF.new] at h
  · intro x y h; simp [UF.new] at h
  · intro r h; simp [UF.new] at h
  · intro x h; simp [UF.new] at h
  · intro x y r h; exact absurd h (hnil x r)

/-- In a good state the generated equivalence is equality of roots. -/
theorem Good.same {u : UF} {n : Nat} {R : List (Nat × Nat)} (g : Good u n R) {x y : Nat}
    (h : Relation.EqvGen (fun a b => (a, b) ∈ R) x y) :
    x = y ∨ ∃ r, Root u.parent x r ∧ Root u.parent y r := by
  induction h with
  | rel a b hab => exact Or.inr (g.complete a b hab)
  | refl a => exact Or.inl rfl
  | symm a b _ ih =>
    rcases ih with h | ⟨r, h1, h2⟩
    · exact Or.inl h.symm
    · exact Or.inr ⟨r, h2, h1⟩
  | trans a b c _ _ ih1 ih2 =>
    rcases ih1 with h | ⟨r, h1, h2⟩
    · subst h; exact ih2
    · rcases ih2 with h | ⟨s, h3, h4⟩
      · subst h; exact Or.inr ⟨r, h1, h2⟩
      · have := Root.det h2 h3; subst this
        exact Or.inr ⟨r, h1, h4⟩

theorem good_find {u v : UF} {n : Nat} {R : List (Nat × Nat)} (g : Good u n R) (hv : UFInv v)
    (hr : v.rank = u.rank) (hl : v.parent.length = u.parent.length)
    (h : ∀ z s, Root u.parent z s → Root v.parent z s) : Good v n R := by
  have hback : ∀ z s, Root v.parent z s → Root u.parent z s := by
    intro z s hz
    have : z ∈ cls u.parent s := by rw [← cls_eq g.inv hl h]; exact mem_cls.mpr hz
    exact mem_cls.mp this
  refine ⟨hv, find_size u v g.inv g.size hl hr h, by rw [hl, g.len], g.pairs, ?_, ?_⟩
  · intro x y r h1 h2; exact g.sound x y r (hback _ _ h1) (hback _ _ h2)
  · intro a b hab
    obtain ⟨r, h1, h2⟩ := g.complete a b hab
    exact ⟨r, h _ _ h1, h _ _ h2⟩

theorem eqvGen_mono {R S : List (Nat × Nat)} (h : ∀ a b, (a, b) ∈ R → (a, b) ∈ S) {x y : Nat}
    (he : Relation.EqvGen (fun a b => (a, b) ∈ R) x y) : Relation.EqvGen (fun a b => (a, b) ∈ S) x y :=
  Relation.EqvGen.mono (fun _ _ => h _ _) _ _ he

theorem good_make {u : UF} {n : Nat} {R : List (Nat × Nat)} (g : Good u n R) :
    Good u.makeSet.2 (n + 1) R := by
  have hnew : Root u.makeSet.2.parent n n := by
    apply Root.base
    simp only [UF.makeSet]
    rw [List.getElem?_append_right (by rw [g.len]), g.len]; simp
  have hcase : ∀ z s, Root u.makeSet.2.parent z s → (z = n ∧ s = n) ∨ Root u.parent z s := by
    intro z s hz
    have hzl := hz.lt.1
    simp only [UF.makeSet, List.length_append, List.length_singleton, g.len] at hzl
    by_cases e : z = n
    · subst e; exact Or.inl ⟨rfl, (Root.det hz hnew)⟩
    · obtain ⟨r, hr⟩ := root_total u g.inv z (by rw [g.len]; omega)
      have := Root.det hz (make_root hr)
      subst this; exact Or.inr hr
  refine ⟨make_inv u g.inv, make_size u g.inv g.size, by simp [UF.makeSet, g.len], ?_, ?_, ?_⟩
  · intro a b hab; have := g.pairs a b hab; omega
  · intro x y r h1 h2
    rcases hcase _ _ h1 with ⟨e1, e2⟩ | h1
    · rcases hcase _ _ h2 with ⟨e3, e4⟩ | h2
      · rw [e1, e3]; exact Relation.EqvGen.refl _
      · exfalso; have := h2.lt.2; rw [g.len] at this; omega
    · rcases hcase _ _ h2 with ⟨e3, e4⟩ | h2
      · exfalso; have := h1.lt.2; rw [g.len] at this; omega
      · exact g.sound x y r h1 h2
  · intro a b hab
    obtain ⟨r, h1, h2⟩ := g.complete a b hab
    exact ⟨r, make_root h1, make_root h2⟩

theorem good_union {u : UF} {n : Nat} {R : List (Nat × Nat)} (g : Good u n R) (x y : Nat)
    (hx : x < n) (hy : y < n) :
    ∃ m u', u.union x y = some (m, u') ∧ Good u' n (R ++ [(x, y)]) ∧
      (m = true ↔ ¬ ∃ r, Root u.parent x r ∧ Root u.parent y r) := by
  obtain ⟨rx, u1, f1, r1, i1, k1, l1, m1⟩ := find_spec u g.inv x (by rw [g.len]; exact hx)
  have g1 := good_find g i1 k1 l1 m1
  obtain ⟨ry, u2, f2, r2, i2, k2, l2, m2⟩ := find_spec u1 i1 y (by rw [g1.len]; exact hy)
  have g2 := good_find g1 i2 k2 l2 m2
  have hrx : Root u2.parent x rx := m2 _ _ (m1 _ _ r1)
  have hry : Root u2.parent y ry := m2 _ _ r2
  have hry0 : Root u.parent y ry := by
    have : y ∈ cls u.parent ry := by rw [← cls_eq g.inv l1 m1]; exact mem_cls.mpr r2
    exact mem_cls.mp this
  have hpairs : ∀ a b, (a, b) ∈ R ++ [(x, y)] → a < n ∧ b < n := by
    intro a b hab
    rw [List.mem_append] at hab
    rcases hab with h | h
    · exact g.pairs a b h
    · simp at h; omega
  unfold UF.union
  simp only [f1, f2]
  by_cases he : rx = ry
  · rw [if_pos he]
    subst he
    refine ⟨false, u2, rfl, ⟨g2.inv, g2.size, g2.len, hpairs, ?_, ?_⟩, ?_⟩
    · intro a b r h1 h2
      exact eqvGen_mono (fun a b h => List.mem_append_left _ h) (g2.sound a b r h1 h2)
    · intro a b hab
      rw [List.mem_append] at hab
      rcases hab with h | h
      · exact g2.complete a b h
      · simp at h; obtain ⟨rfl, rfl⟩ := h; exact ⟨rx, hrx, hry⟩
    · simp only [Bool.false_eq_true, false_iff, not_not]; exact ⟨rx, r1, hry0⟩
  · rw [if_neg he]
    obtain ⟨u3, w, l, hlk, i3, l3, p3, hwl, hle, hrk⟩ := link_inv u2 g2.inv rx ry hrx.isRoot hry.isRoot he
    rw [hlk]
    have hlroot : u2.parent[l]? = some l := by
      rcases hwl with ⟨e1, e2⟩ | ⟨e1, e2⟩
      · rw [e1]; exact hrx.isRoot
      · rw [e1]; exact hry.isRoot
    have hwroot : u2.parent[w]? = some w := by
      rcases hwl with ⟨e1, e2⟩ | ⟨e1, e2⟩
      · rw [e2]; exact hry.isRoot
      · rw [e2]; exact hrx.isRoot
    have hlw : l ≠ w := by
      rcases hwl with ⟨e1, e2⟩ | ⟨e1, e2⟩
      · rw [e1, e2]; exact he
      · rw [e1, e2]; exact Ne.symm he
    have hfwd : ∀ z s, Root u2.parent z s → Root u3.parent z (if s = l then w else s) := by
      intro z s h; rw [p3]; exact link_root hlroot hwroot hlw h
    have hxy : Relation.EqvGen (fun a b => (a, b) ∈ R ++ [(x, y)]) x y :=
      Relation.EqvGen.rel _ _ (by simp)
    -- anything rooted at `l` or `w` is equivalent to `x`
    have hjoin : ∀ z s, Root u2.parent z s → (s = l ∨ s = w) →
        Relation.EqvGen (fun a b => (a, b) ∈ R ++ [(x, y)]) z x := by
      intro z s hz hs
      have hs' : s = rx ∨ s = ry := by
        rcases hwl with ⟨e1, e2⟩ | ⟨e1, e2⟩ <;> rw [e1, e2] at hs
        · exact hs
        · exact hs.symm
      rcases hs' with e | e
      · subst e; exact eqvGen_mono (fun a b h => List.mem_append_left _ h) (g2.sound z x s hz hrx)
      · subst e
        exact Relation.EqvGen.trans _ _ _
          (eqvGen_mono (fun a b h => List.mem_append_left _ h) (g2.sound z y s hz hry))
          (Relation.EqvGen.symm _ _ hxy)
    refine ⟨true, u3, rfl, ⟨i3, link_size u2 u3 g2.inv g2.size l w hlroot hwroot hlw p3 hle hrk,
      by rw [l3, g2.len], hpairs, ?_, ?_⟩, ?_⟩
    · intro a b r h1 h2
      have hal : a < u2.parent.length := by rw [← l3]; exact h1.lt.1
      have hbl : b < u2.parent.length := by rw [← l3]; exact h2.lt.1
      obtain ⟨sa, ha⟩ := root_total u2 g2.inv a hal
      obtain ⟨sb, hb⟩ := root_total u2 g2.inv b hbl
      have ea := Root.det (hfwd _ _ ha) h1
      have eb := Root.det (hfwd _ _ hb) h2
      by_cases hsame : sa = sb
      · subst hsame
        exact eqvGen_mono (fun a b h => List.mem_append_left _ h) (g2.sound a b sa ha hb)
      · have hcases : (sa = l ∨ sa = w) ∧ (sb = l ∨ sb = w) := by
          rw [← eb] at ea
          by_cases c1 : sa = l
          · by_cases c2 : sb = l
            · exact absurd (c1.trans c2.symm) hsame
            · rw [if_pos c1, if_neg c2] at ea; exact ⟨Or.inl c1, Or.inr ea.symm⟩
          · by_cases c2 : sb = l
            · rw [if_neg c1, if_pos c2] at ea; exact ⟨Or.inr ea, Or.inl c2⟩
            · rw [if_neg c1, if_neg c2] at ea; exact absurd ea hsame
        exact Relation.EqvGen.trans _ _ _ (hjoin a sa ha hcases.1)
          (Relation.EqvGen.symm _ _ (hjoin b sb hb hcases.2))
    · intro a b hab
      rw [List.mem_append] at hab
      rcases hab with h | h
      · obtain ⟨r, h1, h2⟩ := g2.complete a b h
        exact ⟨_, hfwd _ _ h1, hfwd _ _ h2⟩
      · simp at h; obtain ⟨rfl, rfl⟩ := h
        have h1 := hfwd _ _ hrx
        have h2 := hfwd _ _ hry
        have e : (if rx = l then w else rx) = (if ry = l then w else ry) := by
          rcases hwl with ⟨e1, e2⟩ | ⟨e1, e2⟩
          · rw [if_pos e1.symm, e2, e1, if_neg (Ne.symm he)]
          · rw [e1, e2, if_neg he, if_pos rfl]
        rw [e] at h1
        exact ⟨_, h1, h2⟩
    · simp only [true_iff]
      rintro ⟨r, h1, h2⟩
      exact he ((Root.det r1 h1).trans (Root.det hry0 h2).symm)

theorem good_run : ∀ (ops : List UFOp) (u : UF) (n : Nat) (R : List (Nat × Nat)), Good u n R →
    WellUsed n ops → ∃ u', u.run ops = some u' ∧ Good u' (n + created ops) (R ++ united ops) := by
  intro ops
  induction ops with
  | nil => intro u n R g _; exact ⟨u, rfl, by simpa [created, united] using g⟩
  | cons op rest ih =>
    intro u n R g hw
    cases op with
    | make =>
      obtain ⟨u', h1, h2⟩ := ih u.makeSet.2 (n + 1) R (good_make g) hw
      refine ⟨u', by simp only [UF.run, UF.step]; exact h1, ?_⟩
      simp only [created, united]
      rw [show n + (created rest + 1) = n + 1 + created rest by omega]; exact h2
    | union x y =>
      obtain ⟨hx, hy, hw⟩ := hw
      obtain ⟨m, u1, h1, h2, _⟩ := good_union g x y hx hy
      obtain ⟨u', h3, h4⟩ := ih u1 n _ h2 hw
      refine ⟨u', by simp only [UF.run, UF.step, h1, Option.map_some]; exact h3, ?_⟩
      simp only [created, united]
      rw [List.append_assoc] at h4; exact h4
    | find x =>
      obtain ⟨hx, hw⟩ := hw
      obtain ⟨r, u1, h1, _, i1, k1, l1, m1⟩ := find_spec u g.inv x (by rw [g.len]; exact hx)
      obtain ⟨u', h3, h4⟩ := ih u1 n R (good_find g i1 k1 l1 m1) hw
      exact ⟨u', by simp only [UF.run, UF.step, h1, Option.map_some]; exact h3, h4⟩

end Verif.Data
