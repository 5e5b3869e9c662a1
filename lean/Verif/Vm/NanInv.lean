import Verif.Vm.NanLemmas

/-! # The invariant of the machine with eight-byte registers -/
namespace Verif.Vm
variable {α : Type} {strict : Prop}

/-- Not a truth value, a float or nothing: what the machine itself boxes. -/
def Plain (v : RV α) : Prop := v.bool? = none ∧ v.float? = none ∧ v ≠ .nothing

/-- What may be in a box; in the strict reading, only what the machine itself boxes. -/
def Boxable (strict : Prop) (v : RV α) : Prop := Wf v ∧ (strict → Plain v)

/-- A word stands for a value. -/
def Rep (strict : Prop) (m : Mem α) (w : Nat) (v : RV α) : Prop :=
  (∃ u, Same u v ∧ Inline w u) ∨ (isHeap w = true ∧ ∃ u, m (ptrOf w) = some u ∧ Same u v ∧ Boxable strict u)

/-- Every register stands for the value of the other machine, and every live box belongs to exactly
one register. -/
structure Inv (strict : Prop) (s : Narrow α) (t : Fat α) : Prop where
  filled : ∀ i, s.regs i = none ↔ t i = none
  rep : ∀ i w v, s.regs i = some w → t i = some v → Rep strict s.mem w v
  owned : ∀ p, s.mem p ≠ none → ∃ i w, s.regs i = some w ∧ isHeap w = true ∧ ptrOf w = p
  once : ∀ i j w w', s.regs i = some w → s.regs j = some w' → isHeap w = true → isHeap w' = true →
    ptrOf w = ptrOf w' → i = j

theorem Inv.start : Inv strict (Narrow.start : Narrow α) (fun _ => none) := by
  constructor <;> simp [Narrow.start]

/-- A word just made: it owns nothing, or a fresh box. -/
def Fresh (strict : Prop) (m : Mem α) (v : RV α) (m' : Mem α) (w : Nat) : Prop :=
  (m' = m ∧ ∃ u, Same u v ∧ Inline w u) ∨
  (isHeap w = true ∧ m (ptrOf w) = none ∧ ∃ u, Same u v ∧ Boxable strict u ∧ m' = m.set (ptrOf w) (some u))

theorem Made.fresh {m m' : Mem α} {v v' : RV α} {w : Nat} (h : Made m v m' w) (hs : Same v v') :
    Fresh strict m v' m' w := by
  rcases h with ⟨h, u, h1, h2⟩ | ⟨h1, h2, h3, h4, h5, h6, h7⟩
  · exact .inl ⟨h, u, h1.trans hs, h2⟩
  · refine .inr ⟨h1, h2, v, hs, ⟨h3, fun _ => ⟨?_, ?_, h7⟩⟩, h4⟩
    · cases v <;> simp_all [RV.bool?]
    · cases v <;> simp_all [RV.float?]

theorem Rep.read {m : Mem α} {w : Nat} {v : RV α} (h : Rep strict m w v) :
    ∃ u, toRuntime m w = .ok u ∧ Same u v ∧ Wf u := by
  rcases h with ⟨u, h1, h2⟩ | ⟨h1, u, h2, h3, h4⟩
  · exact ⟨u, h2.toRuntime m, h1, h2.wf⟩
  · exact ⟨u, by rw [heap_toRuntime h1, heapRef, h2], h3, h4.1⟩

theorem Rep.live {m : Mem α} {w : Nat} {v : RV α} (h : Rep strict m w v) (hh : isHeap w = true) :
    ∃ u, m (ptrOf w) = some u ∧ Same u v ∧ Boxable strict u := by
  rcases h with ⟨u, h1, h2⟩ | ⟨h1, h2⟩
  · rw [h2.not_heap] at hh; cases hh
  · exact h2

theorem Rep.mono {m m' : Mem α} {w : Nat} {v : RV α} (h : Rep strict m w v)
    (hm : isHeap w = true → m' (ptrOf w) = m (ptrOf w)) : Rep strict m' w v := by
  rcases h with h | ⟨h1, h2⟩
  · exact .inl h
  · exact .inr ⟨h1, by rw [hm h1]; exact h2⟩

/-- Dropping a register's word frees its box and no other. -/
theorem Inv.remove {s : Narrow α} {t : Fat α} (h : Inv strict s t) {i w : Nat} (hi : s.regs i = some w) :
    ∃ m, dropWord s.mem w = .ok m ∧
      (m = if isHeap w then s.mem.set (ptrOf w) none else s.mem) ∧
      Inv strict ⟨m, fun r => if r = i then none else s.regs r⟩ (fun r => if r = i then none else t r) := by
  obtain ⟨v, hv⟩ : ∃ v, t i = some v := by
    cases e : t i with
    | none => rw [(h.filled i).2 e] at hi; cases hi
    | some v => exact ⟨v, rfl⟩
  have hr := h.rep i w v hi hv
  have hfill : ∀ r, (if r = i then none else s.regs r) = none ↔
      (if r = i then (none : Option (RV α)) else t r) = none := by
    intro r
    have := h.filled r
    split <;> simp_all
  have honce : ∀ a b x y, (if a = i then none else s.regs a) = some x →
      (if b = i then none else s.regs b) = some y → isHeap x = true → isHeap y = true →
      ptrOf x = ptrOf y → a = b := by
    intro a b x y ha hb
    split at ha
    · cases ha
    split at hb
    · cases hb
    exact h.once a b x y ha hb
  by_cases hh : isHeap w = true
  · obtain ⟨u, hu, _, _⟩ := hr.live hh
    refine ⟨s.mem.set (ptrOf w) none, by simp [dropWord, hh, free, hu], by simp [hh], hfill, ?_, ?_,
      honce⟩
    · intro r x y hx hy
      simp only at hx hy
      split at hx
      · cases hx
      rename_i hne
      rw [if_neg hne] at hy
      refine (h.rep r x y hx hy).mono fun hxx => ?_
      simp only [Mem.set]
      rw [if_neg]
      intro e
      exact hne (h.once r i x w hx hi hxx hh e)
    · intro p hp
      simp only [Mem.set] at hp
      split at hp
      · exact absurd rfl hp
      rename_i hne
      obtain ⟨r, x, h1, h2, h3⟩ := h.owned p hp
      refine ⟨r, x, ?_, h2, h3⟩
      simp only
      rw [if_neg, h1]
      rintro rfl
      rw [hi] at h1; cases h1
      exact hne h3.symm
  · refine ⟨s.mem, by simp [dropWord, hh], by simp [hh], hfill, ?_, ?_, honce⟩
    · intro r x y hx hy
      simp only at hx hy
      split at hx
      · cases hx
      rename_i hne
      rw [if_neg hne] at hy
      exact h.rep r x y hx hy
    · intro p hp
      obtain ⟨r, x, h1, h2, h3⟩ := h.owned p hp
      refine ⟨r, x, ?_, h2, h3⟩
      simp only
      rw [if_neg, h1]
      rintro rfl
      rw [hi] at h1; cases h1
      exact hh h2

/-- Filling an empty register with a fresh word. -/
theorem Inv.fill {s : Narrow α} {t : Fat α} (h : Inv strict s t) {i w : Nat} {v : RV α} {m : Mem α}
    (hi : s.regs i = none) (hf : Fresh strict s.mem v m w) :
    Inv strict ⟨m, fun r => if r = i then some w else s.regs r⟩ (fun r => if r = i then some v else t r) := by
  have hfill : ∀ r, (if r = i then some w else s.regs r) = none ↔
      (if r = i then some v else t r) = none := by
    intro r
    have := h.filled r
    split <;> simp_all
  rcases hf with ⟨rfl, u, h1, h2⟩ | ⟨h1, h2, u, h3, h4, rfl⟩
  · have hnw := h2.not_heap
    refine ⟨hfill, ?_, ?_, ?_⟩
    · intro r x y hx hy
      simp only at hx hy
      split at hx
      · rename_i e
        rw [if_pos e] at hy
        cases hx; cases hy
        exact .inl ⟨u, h1, h2⟩
      · rename_i e
        rw [if_neg e] at hy
        exact h.rep r x y hx hy
    · intro p hp
      obtain ⟨r, x, g1, g2, g3⟩ := h.owned p hp
      refine ⟨r, x, ?_, g2, g3⟩
      simp only
      rw [if_neg, g1]
      rintro rfl
      rw [hi] at g1; cases g1
    · intro a b x y ha hb hxx hyy
      simp only at ha hb
      split at ha
      · cases ha; rw [hnw] at hxx; cases hxx
      split at hb
      · cases hb; rw [hnw] at hyy; cases hyy
      exact h.once a b x y ha hb hxx hyy
  · have fresh : ∀ r x, s.regs r = some x → isHeap x = true → ptrOf x ≠ ptrOf w := by
      intro r x hx hxx e
      cases ht : t r with
      | none => rw [(h.filled r).2 ht] at hx; cases hx
      | some y =>
        obtain ⟨z, hz, _⟩ := (h.rep r x y hx ht).live hxx
        rw [e, h2] at hz; cases hz
    refine ⟨hfill, ?_, ?_, ?_⟩
    · intro r x y hx hy
      simp only at hx hy
      split at hx
      · rename_i e
        rw [if_pos e] at hy
        cases hx; cases hy
        exact .inr ⟨h1, u, by simp [Mem.set], h3, h4⟩
      · rename_i e
        rw [if_neg e] at hy
        refine (h.rep r x y hx hy).mono fun hxx => ?_
        simp only [Mem.set]
        rw [if_neg (fresh r x hx hxx)]
    · intro p hp
      simp only [Mem.set] at hp
      split at hp
      · rename_i e
        exact ⟨i, w, by simp, h1, e.symm⟩
      · obtain ⟨r, x, g1, g2, g3⟩ := h.owned p hp
        refine ⟨r, x, ?_, g2, g3⟩
        simp only
        rw [if_neg, g1]
        rintro rfl
        rw [hi] at g1; cases g1
    · intro a b x y ha hb hxx hyy e
      simp only at ha hb
      split at ha
      · cases ha
        split at hb
        · simp_all
        · exact absurd e.symm (fresh b y hb hyy)
      · split at hb
        · cases hb
          exact absurd e (fresh a x ha hxx)
        · exact h.once a b x y ha hb hxx hyy e

theorem Mem.set_comm (m : Mem α) {p q : Nat} (h : p ≠ q) (a b : Option (RV α)) :
    (m.set p a).set q b = (m.set q b).set p a := by
  funext r
  simp only [Mem.set]
  split <;> split <;> simp_all

/-- Assignment of a fresh word. -/
theorem Inv.assign {s : Narrow α} {t : Fat α} (h : Inv strict s t) {i w : Nat} {v : RV α} {m : Mem α}
    (hf : Fresh strict s.mem v m w) :
    ∃ s', s.assign i m w = .ok s' ∧ Inv strict s' (fun r => if r = i then some v else t r) := by
  cases hi : s.regs i with
  | none =>
    refine ⟨_, by simp only [Narrow.assign, hi], h.fill hi hf⟩
  | some old =>
    obtain ⟨m0, hd, hm0, hinv⟩ := h.remove hi
    -- dropping the old word after making the new one leaves the same memory
    have key : ∃ m1, dropWord m old = .ok m1 ∧ Fresh strict m0 v m1 w := by
      by_cases hh : isHeap old = true
      · obtain ⟨y, hy⟩ : ∃ y, t i = some y := by
          cases e : t i with
          | none => rw [(h.filled i).2 e] at hi; cases hi
          | some y => exact ⟨y, rfl⟩
        obtain ⟨u0, hu0, _, _⟩ := (h.rep i old y hi hy).live hh
        rw [if_pos hh] at hm0
        rcases hf with ⟨rfl, hu⟩ | ⟨h1, h2, u, h3, h4, rfl⟩
        · exact ⟨m0, hd, .inl ⟨rfl, hu⟩⟩
        · have hne : ptrOf w ≠ ptrOf old := by
            intro e; rw [e, hu0] at h2; cases h2
          refine ⟨(s.mem.set (ptrOf w) (some u)).set (ptrOf old) none, ?_,
            .inr ⟨h1, ?_, u, h3, h4, ?_⟩⟩
          · simp only [dropWord, hh, if_true, free]
            rw [show s.mem.set (ptrOf w) (some u) (ptrOf old) = some u0 by
              simp only [Mem.set]; rw [if_neg (Ne.symm hne), hu0]]
          · rw [hm0]; simp only [Mem.set]; rw [if_neg hne, h2]
          · rw [hm0, Mem.set_comm _ hne]
      · rw [if_neg hh] at hm0
        subst hm0
        exact ⟨m, by simp [dropWord, hh], hf⟩
    obtain ⟨m1, hd1, hf1⟩ := key
    refine ⟨⟨m1, fun r => if r = i then some w else s.regs r⟩, by
      simp only [Narrow.assign, hi, hd1]; rfl, ?_⟩
    have := hinv.fill (i := i) (by simp) hf1
    have e1 : (fun r => if r = i then some w else if r = i then none else s.regs r) =
        fun r => if r = i then some w else s.regs r := by
      funext r; split <;> rfl
    have e2 : (fun r => if r = i then some v else if r = i then (none : Option (RV α)) else t r) =
        fun r => if r = i then some v else t r := by
      funext r; split <;> rfl
    simp only [e1, e2] at this
    exact this

end Verif.Vm
