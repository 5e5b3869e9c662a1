import Verif.Data.UFLemmas
import Verif.Data.Intern

/-! # C53, C54: union-find and the interner -/
namespace Verif.Props
open Verif.Data

/-! ## C53 -/

/-- Specification: `x` and `y` are linked by the unions made. -/
def Linked (ops : List UFOp) : Nat → Nat → Prop := Relation.EqvGen fun a b => (a, b) ∈ united ops

/-- **C53**: after any calls on existing elements nothing panics, and then for existing elements:
`find` answers, with an element linked to the one asked about; two finds agree exactly when their
elements are linked; and a find leaves all later answers as they were. -/
theorem C53_find (ops : List UFOp) (hw : WellUsed 0 ops) :
    ∃ u, UF.new.run ops = some u ∧
      (∀ x, x < created ops → ∃ r u', u.find x = some (r, u') ∧ r < created ops ∧ Linked ops x r ∧
        (∀ y s v, u.find y = some (s, v) → ∃ v', u'.find y = some (s, v'))) ∧
      ∀ x y rx ry ux uy, x < created ops → y < created ops →
        u.find x = some (rx, ux) → u.find y = some (ry, uy) → (rx = ry ↔ Linked ops x y) := by
  obtain ⟨u, h1, g⟩ := good_run ops UF.new 0 [] good_new hw
  simp only [Nat.zero_add, List.nil_append] at g
  have hfind : ∀ x r v, u.find x = some (r, v) → x < created ops := by
    intro x r v h
    rcases Nat.lt_or_ge x (created ops) with hc | hc
    · exact hc
    · exfalso
      unfold UF.find findF at h
      rw [List.getElem?_eq_none (by rw [g.len]; exact hc)] at h
      simp at h
  have hroot : ∀ x r v, u.find x = some (r, v) → Root u.parent x r := by
    intro x r v h
    obtain ⟨r', v', f1, f2, _⟩ := find_spec u g.inv x (by rw [g.len]; exact hfind x r v h)
    rw [f1] at h; simp only [Option.some.injEq, Prod.mk.injEq] at h
    rw [← h.1]; exact f2
  refine ⟨u, h1, fun x hx => ?_, ?_⟩
  · obtain ⟨r, u', f1, f2, f3, f4, f5, f6⟩ := find_spec u g.inv x (by rw [g.len]; exact hx)
    refine ⟨r, u', f1, by rw [← g.len]; exact f2.lt.2, ?_, ?_⟩
    · exact g.sound x r r f2 (Root.base f2.isRoot)
    · intro y s v hy
      have hyl := hfind y s v hy
      obtain ⟨s', v', e1, e2, _⟩ := find_spec u' f3 y (by rw [f5, g.len]; exact hyl)
      have := Root.det e2 (f6 _ _ (hroot y s v hy))
      subst this; exact ⟨v', e1⟩
  · intro x y rx ry ux uy hx hy h h'
    have rx' := hroot x rx ux h
    have ry' := hroot y ry uy h'
    constructor
    · rintro rfl; exact g.sound x y rx rx' ry'
    · intro hl
      rcases g.same hl with e | ⟨r, a, b⟩
      · subst e; exact Root.det rx' ry'
      · rw [Root.det rx' a, Root.det ry' b]

/-- **C53**: `union` reports a merge exactly when its elements were not linked before. -/
theorem C53_union_flag (ops : List UFOp) (hw : WellUsed 0 ops) (x y : Nat) (hx : x < created ops)
    (hy : y < created ops) :
    ∃ u m u', UF.new.run ops = some u ∧ u.union x y = some (m, u') ∧ (m = true ↔ ¬ Linked ops x y) := by
  obtain ⟨u, h1, g⟩ := good_run ops UF.new 0 [] good_new hw
  simp only [Nat.zero_add, List.nil_append] at g
  obtain ⟨m, u', e1, _, e3⟩ := good_union g x y hx hy
  refine ⟨u, m, u', h1, e1, ?_⟩
  rw [e3, not_iff_not]
  constructor
  · rintro ⟨r, a, b⟩; exact g.sound x y r a b
  · intro hl
    rcases g.same hl with e | h
    · subst e
      obtain ⟨r, hr⟩ := root_total u g.inv x (by rw [g.len]; exact hx)
      exact ⟨r, hr, hr⟩
    · exact h

/-- **C53**: `make_set` hands out the number of elements so far, so a new element each time. -/
theorem C53_make (ops : List UFOp) (hw : WellUsed 0 ops) :
    ∃ u, UF.new.run ops = some u ∧ u.makeSet.1 = created ops := by
  obtain ⟨u, h1, g⟩ := good_run ops UF.new 0 [] good_new hw
  exact ⟨u, h1, by simpa [UF.makeSet] using g.len⟩

/-- **C53**: `find` recurses at most `log2 n + 1` deep among `n` elements: given that many calls it
answers, with the answer of the unrestricted `find`. -/
theorem C53_depth (ops : List UFOp) (hw : WellUsed 0 ops) (x : Nat) (hx : x < created ops) :
    ∃ u r p u', UF.new.run ops = some u ∧ findF (Nat.log2 (created ops) + 1) u.parent x = some (r, p) ∧
      u.find x = some (r, u') := by
  obtain ⟨u, h1, g⟩ := good_run ops UF.new 0 [] good_new hw
  simp only [Nat.zero_add, List.nil_append] at g
  have hmax : u.rank.foldl max 0 ≤ Nat.log2 (created ops) := by
    have hall : ∀ v ∈ u.rank, v ≤ Nat.log2 (created ops) := by
      intro v hv
      obtain ⟨i, hi, e⟩ := List.getElem_of_mem hv
      have := g.size.all i (by rw [← g.inv.len]; exact hi)
      rw [List.getD_eq_getElem _ _ hi, e, g.len] at this
      exact (Nat.le_log2 (by omega)).mpr this
    have hfold : ∀ (l : List Nat) (a b : Nat), a ≤ b → (∀ v ∈ l, v ≤ b) → l.foldl max a ≤ b := by
      intro l
      induction l with
      | nil => intro a b h _; exact h
      | cons c l ih =>
        intro a b h hl
        rw [List.foldl_cons]
        exact ih _ _ (Nat.max_le.mpr ⟨h, hl c (by simp)⟩) (fun v hv => hl v (by simp [hv]))
    exact hfold _ _ _ (Nat.zero_le _) hall
  obtain ⟨r, p, e1, e2, _⟩ := findF_spec u.rank (Nat.log2 (created ops) + 1) u.parent x g.inv
    (by rw [g.len]; exact hx) (by omega)
  obtain ⟨r', u', f1, f2, _⟩ := find_spec u g.inv x (by rw [g.len]; exact hx)
  have := Root.det e2 f2
  subst this
  exact ⟨u, r, p, u', h1, e1, f1⟩

/-- Five elements and three unions meet the hypothesis; 0 and 3 are linked, 4 is alone. -/
example : let ops := [UFOp.make, .make, .make, .make, .make, .union 0 1, .union 2 3, .union 1 3, .find 0]
    WellUsed 0 ops ∧ created ops = 5 ∧ Linked ops 0 3 := by
  refine ⟨by simp [WellUsed], rfl, ?_⟩
  exact .trans _ 1 _ (.rel _ _ (by decide)) (.rel _ _ (by decide))

/-! ## C54 -/

section
variable {T : Type} [DecidableEq T]

/-- What holds of an interner after interning `past`, while fewer than 2^32 texts are stored. -/
structure InternInv (empty : T) (i : Interner T) (past : List T) : Prop where
  zero : i.vec[0]? = some empty
  keys : ∀ s, (i.map.get? s).isSome ↔ s ∈ past
  points : ∀ s k, i.map.get? s = some k → 1 ≤ k ∧ i.vec[k]? = some s
  len : i.vec.length = past.toFinset.card + 1

theorem intern_new (empty : T) : InternInv empty (Interner.new empty) [] :=
  ⟨rfl, by simp [Interner.new], by simp [Interner.new], by simp [Interner.new]⟩

theorem intern_step {empty : T} {i : Interner T} {past : List T} (h : InternInv empty i past) (s : T)
    (hlt : past.toFinset.card + 1 < 4294967296) :
    InternInv empty (i.intern s).2 (past ++ [s]) ∧ (i.intern s).2.map.get? s = some (i.intern s).1 ∧
      (∃ l, (i.intern s).2.vec = i.vec ++ l) ∧
      ∀ t k, i.map.get? t = some k → (i.intern s).2.map.get? t = some k := by
  unfold Interner.intern
  cases hs : i.map.get? s with
  | some k =>
    have hm : s ∈ past := (h.keys s).mp (by rw [hs]; rfl)
    refine ⟨⟨h.zero, fun t => ?_, h.points, ?_⟩, hs, ⟨[], by simp⟩, fun t k h => h⟩
    · rw [h.keys]; simp only [List.mem_append, List.mem_singleton]
      constructor
      · exact Or.inl
      · rintro (h | rfl)
        · exact h
        · exact hm
    · rw [h.len, List.toFinset_append]; congr 2
      ext x; simp only [Finset.mem_union, List.mem_toFinset, List.mem_singleton]
      constructor
      · exact Or.inl
      · rintro (h | rfl)
        · exact h
        · exact hm
  | none =>
    have hm : s ∉ past := fun hc => by have := (h.keys s).mpr hc; rw [hs] at this; simp at this
    have hmod : i.vec.length % 4294967296 = i.vec.length := Nat.mod_eq_of_lt (by rw [h.len]; exact hlt)
    have hget : ∀ t, (i.map.insert s i.vec.length).get? t = if t = s then some i.vec.length else i.map.get? t :=
      fun t => HMap.get?_insert ..
    simp only [hmod]
    refine ⟨⟨?_, fun t => ?_, fun t k hk => ?_, ?_⟩, by rw [hget, if_pos rfl], ⟨[s], rfl⟩, fun t k hk => ?_⟩
    · show (i.vec ++ [s])[0]? = _
      rw [List.getElem?_append_left (by rw [h.len]; omega)]; exact h.zero
    · show ((i.map.insert s i.vec.length).get? t).isSome ↔ _
      rw [hget]; simp only [List.mem_append, List.mem_singleton]
      by_cases e : t = s
      · simp [e]
      · rw [if_neg e, h.keys]; simp [e]
    · have hk : (i.map.insert s i.vec.length).get? t = some k := hk
      show 1 ≤ k ∧ (i.vec ++ [s])[k]? = some t
      rw [hget] at hk
      split at hk
      · rename_i e; simp only [Option.some.injEq] at hk; subst hk e
        exact ⟨by rw [h.len]; omega, by simp⟩
      · obtain ⟨a, b⟩ := h.points t k hk
        exact ⟨a, by rw [List.getElem?_append_left (List.getElem?_eq_some_iff.mp b).1]; exact b⟩
    · show (i.vec ++ [s]).length = _
      rw [List.length_append, h.len, List.toFinset_append, Finset.card_union_of_disjoint
        (by simpa using hm)]
      simp
    · show (i.map.insert s i.vec.length).get? t = some k
      rw [hget, if_neg (by rintro rfl; rw [hs] at hk; simp at hk)]; exact hk

theorem intern_run {empty : T} : ∀ (texts past : List T) (i : Interner T), InternInv empty i past →
    (past ++ texts).toFinset.card < 4294967295 →
    InternInv empty (i.run texts).2 (past ++ texts) ∧
      (∀ t k, i.map.get? t = some k → (i.run texts).2.map.get? t = some k) ∧
      (i.run texts).1.length = texts.length ∧
      ∀ j : Nat, ∀ s, texts[j]? = some s → ∃ k, (i.run texts).1[j]? = some k ∧
        (i.run texts).2.map.get? s = some k := by
  intro texts
  induction texts with
  | nil => intro past i h _; exact ⟨by simpa [Interner.run] using h, fun t k h => h, rfl, by simp⟩
  | cons s rest ih =>
    intro past i h hc
    have hc1 : past.toFinset.card + 1 < 4294967296 := by
      have : past.toFinset.card ≤ (past ++ s :: rest).toFinset.card := by
        apply Finset.card_le_card; intro x; simp; tauto
      omega
    obtain ⟨a, b, _, d⟩ := intern_step h s hc1
    obtain ⟨a', b', c', d'⟩ := ih (past ++ [s]) (i.intern s).2 a (by simpa using hc)
    refine ⟨by simpa [Interner.run] using a', fun t k hk => b' t k (d t k hk), by simp [Interner.run, c'], ?_⟩
    intro j t hj
    cases j with
    | zero =>
      simp only [List.getElem?_cons_zero, Option.some.injEq] at hj
      subst hj
      exact ⟨(i.intern s).1, by simp [Interner.run], b' _ _ b⟩
    | succ j =>
      simp only [List.getElem?_cons_succ] at hj
      obtain ⟨k, k1, k2⟩ := d' j t hj
      exact ⟨k, by simpa [Interner.run] using k1, k2⟩

/-- **C54**: while fewer than 2^32 - 1 different texts have been interned: every symbol handed out
resolves — at the end, so it stayed valid — to the text it was handed out for; two symbols are equal
exactly when their texts are; `lookup` finds exactly the interned texts, with their symbols; and symbol
zero resolves to the empty text.  Missing: the empty text is symbol zero, and more texts, where the
claim is false (`C54_empty_fails`, `C54_wrap_fails`). -/
theorem C54_faithful_partial (empty : T) (texts : List T) (hn : texts.toFinset.card < 2 ^ 32 - 1) :
    let r := (Interner.new empty).run texts
    r.1.length = texts.length ∧
    (∀ (j : Nat) s k, texts[j]? = some s → r.1[j]? = some k → r.2.resolve k = some s ∧ r.2.lookup s = some k) ∧
    (∀ (j j' : Nat) s s' k k', texts[j]? = some s → texts[j']? = some s' → r.1[j]? = some k → r.1[j']? = some k' →
      (k = k' ↔ s = s')) ∧
    (∀ s, s ∉ texts → r.2.lookup s = none) ∧
    r.2.resolve 0 = some empty ∧ r.2.len = texts.toFinset.card + 1 := by
  obtain ⟨a, _, c, d⟩ := intern_run texts [] (Interner.new empty) (intern_new empty) (by simpa using hn)
  simp only [List.nil_append] at a
  have hkey : ∀ (j : Nat) s k, texts[j]? = some s → ((Interner.new empty).run texts).1[j]? = some k →
      ((Interner.new empty).run texts).2.map.get? s = some k := by
    intro j s k hj hk
    obtain ⟨k', e1, e2⟩ := d j s hj
    rw [hk] at e1; simp only [Option.some.injEq] at e1; rw [e1]; exact e2
  refine ⟨c, fun j s k hj hk => ⟨(a.points s k (hkey j s k hj hk)).2, hkey j s k hj hk⟩, ?_, ?_, a.zero, a.len⟩
  · intro j j' s s' k k' hj hj' hk hk'
    have e := hkey j s k hj hk
    have e' := hkey j' s' k' hj' hk'
    constructor
    · rintro rfl
      have h1 := (a.points _ _ e).2
      have h2 := (a.points _ _ e').2
      rw [h1] at h2; simpa using h2
    · rintro rfl; rw [e] at e'; simpa using e'
  · intro s hs
    have := (a.keys s).not.mpr hs
    simpa [Interner.lookup] using this

/-- Three texts, one twice. -/
example : ((Interner.new "").run ["dog", "cat", "dog"]).1 = [1, 2, 1] ∧
    (["dog", "cat", "dog"].toFinset.card < 2 ^ 32 - 1) := by decide

/-- **C54** fails for the empty text: interning it hands out symbol 1, not symbol zero. -/
theorem C54_empty_fails (empty : T) :
    ((Interner.new empty).intern empty).1 = 1 ∧ (Interner.new empty).resolve 0 = some empty := by
  simp [Interner.new, Interner.intern, Interner.resolve]

end

theorem wrap_state (n : Nat) (hn : n ≤ 4294967295) :
    ((Interner.new (0 : Nat)).run ((List.range n).map (· + 1))).2.vec.length = n + 1 ∧
    ∀ s, n < s → ((Interner.new (0 : Nat)).run ((List.range n).map (· + 1))).2.map.get? s = none := by
  have hcard : ((List.range n).map (· + 1)).toFinset.card = n := by
    rw [List.card_toFinset, List.dedup_eq_self.mpr]
    · simp
    · exact (List.nodup_range).map (fun a b h => by simpa using h)
  have hrun : ∀ m, m ≤ n → InternInv (0 : Nat) ((Interner.new (0 : Nat)).run ((List.range m).map (· + 1))).2
      ((List.range m).map (· + 1)) := by
    intro m hm
    have happ : ∀ (l l' : List Nat) (i : Interner Nat), (i.run (l ++ l')).2 = ((i.run l).2.run l').2 := by
      intro l
      induction l with
      | nil => intro l' i; rfl
      | cons a l ih => intro l' i; simp only [List.cons_append, Interner.run]; exact ih l' _
    induction m with
    | zero => exact intern_new 0
    | succ m ih =>
      rw [List.range_succ, List.map_append, happ]
      have hc : ((List.range m).map (· + 1)).toFinset.card + 1 < 4294967296 := by
        have : ((List.range m).map (· + 1)).toFinset.card ≤ m := by
          refine (List.toFinset_card_le _).trans (by simp)
        omega
      exact (intern_step (ih (by omega)) (m + 1) hc).1
  have h := hrun n (Nat.le_refl n)
  refine ⟨by rw [h.len, hcard], fun s hs => ?_⟩
  have := (h.keys s).not.mpr (by simp; omega)
  simpa using this

theorem run_zero : ∀ (l : List Nat) (i : Interner Nat), i.vec[0]? = some 0 → (i.run l).2.vec[0]? = some 0 := by
  intro l
  induction l with
  | nil => intro i h; exact h
  | cons a l ih =>
    intro i h
    simp only [Interner.run]
    apply ih
    unfold Interner.intern
    cases i.map.get? a with
    | some k => exact h
    | none =>
      show (i.vec ++ [a])[0]? = some 0
      rw [List.getElem?_append_left (List.getElem?_eq_some_iff.mp h).1]; exact h

theorem wrap_aux (n : Nat) (hn : n = 4294967295) : ∃ (texts : List Nat) (s : Nat), s ∉ texts ∧ s ≠ 0 ∧
    let r := ((Interner.new (0 : Nat)).run texts).2.intern s
    r.1 = 0 ∧ r.2.resolve r.1 ≠ some s := by
  refine ⟨(List.range n).map (· + 1), n + 1, by simp, by omega, ?_⟩
  obtain ⟨h1, h2⟩ := wrap_state n (by omega)
  have hm := h2 (n + 1) (by omega)
  have hz0 := run_zero ((List.range n).map (· + 1)) (Interner.new 0) rfl
  generalize ((Interner.new (0 : Nat)).run ((List.range n).map (· + 1))).2 = i at *
  have hmod : (n + 1) % 4294967296 = 0 := by omega
  simp only [Interner.intern, hm, h1, hmod, Interner.resolve]
  refine ⟨trivial, ?_⟩
  rw [List.getElem?_append_left (List.getElem?_eq_some_iff.mp hz0).1, hz0]
  intro hc
  simp only [Option.some.injEq] at hc
  omega

/-- **C54** fails beyond 2^32 - 1 texts: the next different text gets symbol 0 again, which resolves
to the empty text and not to it. -/
theorem C54_wrap_fails : ∃ (texts : List Nat) (s : Nat), s ∉ texts ∧ s ≠ 0 ∧
    let r := ((Interner.new (0 : Nat)).run texts).2.intern s
    r.1 = 0 ∧ r.2.resolve r.1 ≠ some s := wrap_aux _ rfl

end Verif.Props
