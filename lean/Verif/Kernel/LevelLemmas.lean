import Verif.Kernel.Level
import Mathlib.Data.Int.Order.Basic
import Mathlib.Order.Lattice
import Mathlib.Tactic.Tauto
/-!
# Lemmas about universe levels
-/
namespace Verif.Level

/-- The value of a level. -/
def LNat.val (ν : String → Nat) : LNat → Nat
  | .const n => n
  | .var v => ν v
  | .succ l => l.val ν + 1
  | .max a b => Max.max (a.val ν) (b.val ν)
  | .imax a b => if b.val ν = 0 then 0 else Max.max (a.val ν) (b.val ν)

theorem simpIMax_val (ν : String → Nat) (b : LNat) : ∀ a : LNat,
    (simpIMax a b).val ν = if b.val ν = 0 then 0 else Max.max (a.val ν) (b.val ν) := by
  induction b with
  | const n => intro a; cases n <;> simp [simpIMax, LNat.val]
  | var v => intro a; simp [simpIMax, LNat.val]
  | succ l _ => intro a; simp [simpIMax, LNat.val]
  | max b1 b2 i1 i2 =>
    intro a
    simp only [simpIMax, LNat.val, i1, i2]
    by_cases h1 : b1.val ν = 0 <;> by_cases h2 : b2.val ν = 0 <;> simp [h1, h2]
    omega
  | imax b1 b2 _ i2 =>
    intro a
    simp only [simpIMax, LNat.val, i2]
    split_ifs <;> omega

theorem simp_val (ν : String → Nat) (a : LNat) : (simp a).val ν = a.val ν := by
  induction a with
  | const n => rfl
  | var v => rfl
  | succ l ih => simp [simp, LNat.val, ih]
  | max a b i1 i2 => simp [simp, LNat.val, i1, i2]
  | imax a b i1 i2 => simp [simp, simpIMax_val, LNat.val, i1, i2]

/-- Simplified levels: every `IMax` has a variable on the right. -/
def Simplified : LNat → Prop
  | .const _ => True
  | .var _ => True
  | .succ l => Simplified l
  | .max a b => Simplified a ∧ Simplified b
  | .imax a (.var _) => Simplified a
  | .imax _ _ => False

theorem simpIMax_simplified {b : LNat} : ∀ {a : LNat}, Simplified a → Simplified b →
    Simplified (simpIMax a b) := by
  induction b with
  | const n => intro a ha _; cases n <;> simp_all [simpIMax, Simplified]
  | var v => intro a ha _; simpa [simpIMax, Simplified]
  | succ l _ => intro a ha h; exact ⟨ha, h⟩
  | max b1 b2 i1 i2 => intro a ha h; exact ⟨i1 ha h.1, i2 ha h.2⟩
  | imax b1 b2 i1 i2 =>
    intro a ha h
    cases b2 with
    | var v => exact i2 ⟨ha, h⟩ trivial
    | _ => exact absurd h (by simp [Simplified])

theorem simp_simplified (a : LNat) : Simplified (simp a) := by
  induction a with
  | const n => trivial
  | var v => trivial
  | succ l ih => exact ih
  | max a b i1 i2 => exact ⟨i1, i2⟩
  | imax a b i1 i2 => exact simpIMax_simplified i1 i2

theorem simp_of_simplified {a : LNat} (h : Simplified a) : simp a = a := by
  induction a with
  | const n => rfl
  | var v => rfl
  | succ l ih => simp only [simp, ih h]
  | max a b i1 i2 => simp only [simp, i1 h.1, i2 h.2]
  | imax a b i1 _ =>
    cases b with
    | var v => simp only [simp, i1 h, simpIMax]
    | _ => exact absurd h (by simp [Simplified])

/-- The number of imaxes does not grow in a simplification of a substituted simplified level. -/
theorem simpIMax_imaxes_const {a : LNat} (n : Nat) : imaxes (simpIMax a (.const n)) ≤ imaxes a := by
  cases n <;> simp [simpIMax, imaxes]

/-- The variables of a level. -/
def LNat.names : LNat → List String
  | .const _ => []
  | .var v => [v]
  | .succ l => l.names
  | .max a b => a.names ++ b.names
  | .imax a b => a.names ++ b.names

theorem simpIMax_names {b : LNat} : ∀ {a : LNat} {v : String}, v ∈ (simpIMax a b).names →
    v ∈ a.names ∨ v ∈ b.names := by
  induction b with
  | const n => intro a v h; cases n <;> simp_all [simpIMax, LNat.names]
  | var w => intro a v h; simpa [simpIMax, LNat.names] using h
  | succ l _ => intro a v h; simpa [simpIMax, LNat.names] using h
  | max b1 b2 i1 i2 =>
    intro a v h
    simp only [simpIMax, LNat.names, List.mem_append] at h ⊢
    rcases h with h | h
    · rcases i1 h with h | h <;> simp [h]
    · rcases i2 h with h | h <;> simp [h]
  | imax b1 b2 _ i2 =>
    intro a v h
    simp only [simpIMax] at h
    rcases i2 h with h | h
    · simp only [LNat.names, List.mem_append] at h ⊢
      tauto
    · simp [LNat.names, h]

theorem simp_names {a : LNat} {v : String} (h : v ∈ (simp a).names) : v ∈ a.names := by
  induction a with
  | const n => exact h
  | var v => exact h
  | succ l ih => exact ih h
  | max a b i1 i2 =>
    simp only [simp, LNat.names, List.mem_append] at h ⊢
    exact h.imp i1 i2
  | imax a b i1 i2 =>
    simp only [simp, LNat.names, List.mem_append] at h ⊢
    exact (simpIMax_names h).imp i1 i2

/-- The variables on the right of an `IMax`. -/
def pivots : LNat → List String
  | .const _ => []
  | .var _ => []
  | .succ l => pivots l
  | .max a b => pivots a ++ pivots b
  | .imax a (.var v) => v :: pivots a
  | .imax a b => pivots a ++ pivots b

theorem pivots_names {a : LNat} {v : String} (h : v ∈ pivots a) : v ∈ a.names := by
  induction a with
  | const n => exact h
  | var v => cases h
  | succ l ih => exact ih h
  | max a b i1 i2 =>
    simp only [pivots, LNat.names, List.mem_append] at h ⊢
    exact h.imp i1 i2
  | imax a b i1 i2 =>
    simp only [LNat.names, List.mem_append]
    cases b with
    | var w =>
      simp only [pivots, List.mem_cons] at h
      rcases h with rfl | h
      · simp [LNat.names]
      · exact .inl (i1 h)
    | _ =>
      rw [pivots.eq_6 _ _ (by simp), List.mem_append] at h
      exact h.imp i1 i2

theorem pivot_mem {a : LNat} {v : String} (h : pivot a = some v) : v ∈ pivots a := by
  induction a with
  | const n => cases h
  | var v => cases h
  | succ l ih => exact ih h
  | max a b i1 i2 =>
    simp only [pivot, Option.or_eq_some_iff] at h
    simp only [pivots, List.mem_append]
    rcases h with h | ⟨_, h⟩
    · exact .inl (i1 h)
    · exact .inr (i2 h)
  | imax a b i1 i2 =>
    cases b with
    | var w => simp only [pivot, Option.some.injEq] at h; simp [pivots, h]
    | _ =>
      rw [pivot.eq_6 _ _ (by simp), Option.or_eq_some_iff] at h
      rw [pivots.eq_6 _ _ (by simp), List.mem_append]
      rcases h with h | ⟨_, h⟩
      · exact .inl (i1 h)
      · exact .inr (i2 h)

theorem pivot_none {a : LNat} (h : pivot a = none) (hs : Simplified a) : imaxes a = 0 := by
  induction a with
  | const n => rfl
  | var v => rfl
  | succ l ih => exact ih h hs
  | max a b i1 i2 =>
    simp only [pivot, Option.or_eq_none_iff] at h
    simp [imaxes, i1 h.1 hs.1, i2 h.2 hs.2]
  | imax a b i1 i2 =>
    cases b with
    | var w => cases h
    | _ => exact absurd hs (by simp [Simplified])

/-! ### Substitution -/

theorem substL_val (ν : String → Nat) (v : String) (r a : LNat) :
    (substL v r a).val ν = a.val (fun x => if x = v then r.val ν else ν x) := by
  induction a with
  | const n => rfl
  | var x => simp only [substL, LNat.val]; split <;> rfl
  | succ l ih => simp [substL, LNat.val, ih]
  | max a b i1 i2 => simp [substL, LNat.val, i1, i2]
  | imax a b i1 i2 => simp [substL, LNat.val, i1, i2]

theorem substL_names {v : String} {r a : LNat} {x : String} (h : x ∈ (substL v r a).names) :
    (x ∈ a.names ∧ x ≠ v) ∨ x ∈ r.names := by
  induction a with
  | const n => cases h
  | var y =>
    simp only [substL] at h
    split at h
    · exact .inr h
    · rename_i hy
      simp only [LNat.names, List.mem_singleton] at h ⊢
      subst h; exact .inl ⟨rfl, hy⟩
  | succ l ih => exact ih h
  | max a b i1 i2 =>
    simp only [substL, LNat.names, List.mem_append] at h ⊢
    rcases h with h | h
    · rcases i1 h with h | h <;> tauto
    · rcases i2 h with h | h <;> tauto
  | imax a b i1 i2 =>
    simp only [substL, LNat.names, List.mem_append] at h ⊢
    rcases h with h | h
    · rcases i1 h with h | h <;> tauto
    · rcases i2 h with h | h <;> tauto

/-- What is substituted in `lnat_leq`. -/
def Flat (r : LNat) : Prop := (∃ n, r = .const n) ∨ ∃ v, r = .succ (.var v)

theorem flat_imaxes {r : LNat} (h : Flat r) : imaxes r = 0 := by
  rcases h with ⟨n, rfl⟩ | ⟨v, rfl⟩ <;> rfl

theorem flat_simpIMax {r : LNat} (h : Flat r) (a : LNat) : imaxes (simpIMax a r) ≤ imaxes a ∧
    ∀ x, x ∈ pivots (simpIMax a r) → x ∈ pivots a := by
  rcases h with ⟨n, rfl⟩ | ⟨v, rfl⟩
  · cases n <;> simp [simpIMax, imaxes, pivots]
  · simp [simpIMax, imaxes, pivots]

theorem flat_simp {r : LNat} (h : Flat r) : simp r = r := by
  rcases h with ⟨n, rfl⟩ | ⟨v, rfl⟩ <;> rfl

/-- Substituting for a pivot leaves no more `IMax` than before, and no new pivot. -/
theorem split_counts {v : String} {r : LNat} (hr : Flat r) {a : LNat} (hs : Simplified a) :
    imaxes (simp (substL v r a)) ≤ imaxes a ∧
      (v ∈ pivots a → imaxes (simp (substL v r a)) < imaxes a) ∧
      ∀ x, x ∈ pivots (simp (substL v r a)) → x ∈ pivots a ∧ x ≠ v := by
  induction a with
  | const n => simp [substL, simp, imaxes, pivots]
  | var y =>
    simp only [substL]
    split
    · rw [flat_simp hr]
      refine ⟨by simp [flat_imaxes hr], by simp [pivots], ?_⟩
      rcases hr with ⟨n, rfl⟩ | ⟨v, rfl⟩ <;> simp [pivots]
    · simp [simp, imaxes, pivots]
  | succ l ih => exact ih hs
  | max a b i1 i2 =>
    obtain ⟨h1, h2, h3⟩ := i1 hs.1
    obtain ⟨k1, k2, k3⟩ := i2 hs.2
    simp only [substL, simp, imaxes, pivots, List.mem_append]
    refine ⟨by omega, ?_, ?_⟩
    · rintro (h | h)
      · have := h2 h; omega
      · have := k2 h; omega
    · rintro x (h | h)
      · exact ⟨.inl (h3 x h).1, (h3 x h).2⟩
      · exact ⟨.inr (k3 x h).1, (k3 x h).2⟩
  | imax a b i1 i2 =>
    cases b with
    | var w =>
      obtain ⟨h1, h2, h3⟩ := i1 hs
      simp only [substL, simp, imaxes, pivots, List.mem_cons]
      by_cases hw : w = v
      · subst hw
        rw [if_pos rfl, flat_simp hr]
        obtain ⟨f1, f2⟩ := flat_simpIMax hr (simp (substL w r a))
        refine ⟨by omega, fun _ => by omega, fun x hx => ?_⟩
        exact ⟨.inr (h3 x (f2 x hx)).1, (h3 x (f2 x hx)).2⟩
      · rw [if_neg hw]
        simp only [simp, simpIMax, imaxes, pivots, List.mem_cons]
        refine ⟨by omega, ?_, ?_⟩
        · rintro (h | h)
          · exact absurd h.symm hw
          · have := h2 h; omega
        · rintro x (rfl | h)
          · exact ⟨.inl rfl, hw⟩
          · exact ⟨.inr (h3 x h).1, (h3 x h).2⟩
    | _ => exact absurd hs (by simp [Simplified])

/-! ### Atoms -/

/-- The value of one atom. -/
def atomVal (ν : String → Nat) : Option String × Nat → Nat
  | (none, o) => o
  | (some v, o) => ν v + o

/-- The largest value of some atoms. -/
def atomsVal (ν : String → Nat) (l : List (Option String × Nat)) : Nat :=
  l.foldr (fun e m => Max.max (atomVal ν e) m) 0

theorem atomsVal_append (ν : String → Nat) (x y : List (Option String × Nat)) :
    atomsVal ν (x ++ y) = Max.max (atomsVal ν x) (atomsVal ν y) := by
  induction x with
  | nil => simp [atomsVal]
  | cons e x ih =>
    have : atomsVal ν (e :: x ++ y) = Max.max (atomVal ν e) (atomsVal ν (x ++ y)) := rfl
    rw [this, ih]
    have : atomsVal ν (e :: x) = Max.max (atomVal ν e) (atomsVal ν x) := rfl
    rw [this]; omega

theorem atoms_spec {a : LNat} (h : imaxes a = 0) : ∀ off, ∃ l, atoms off a = some l ∧
    ∀ ν, atomsVal ν l = a.val ν + off := by
  induction a with
  | const n => intro off; exact ⟨_, rfl, fun ν => by simp [atomsVal, atomVal, LNat.val]⟩
  | var v => intro off; exact ⟨_, rfl, fun ν => by simp [atomsVal, atomVal, LNat.val]⟩
  | succ l ih =>
    intro off
    obtain ⟨l', e, hv⟩ := ih h (off + 1)
    exact ⟨l', e, fun ν => by rw [hv]; simp [LNat.val]; omega⟩
  | max a b i1 i2 =>
    intro off
    simp only [imaxes] at h
    obtain ⟨x, e1, h1⟩ := i1 (by omega) off
    obtain ⟨y, e2, h2⟩ := i2 (by omega) off
    refine ⟨x ++ y, by simp [atoms, e1, e2], fun ν => ?_⟩
    rw [atomsVal_append, h1, h2]; simp only [LNat.val]; omega
  | imax a b _ _ => simp [imaxes] at h

theorem le_atomsVal {ν : String → Nat} {l : List (Option String × Nat)} {e : Option String × Nat}
    (h : e ∈ l) : atomVal ν e ≤ atomsVal ν l := by
  induction l with
  | nil => cases h
  | cons d l ih =>
    have hd : atomsVal ν (d :: l) = Max.max (atomVal ν d) (atomsVal ν l) := rfl
    rcases List.mem_cons.1 h with rfl | h
    · rw [hd]; omega
    · have := ih h; rw [hd]; omega

theorem atomsVal_le {ν : String → Nat} {l : List (Option String × Nat)} {n : Nat} :
    atomsVal ν l ≤ n ↔ ∀ e ∈ l, atomVal ν e ≤ n := by
  refine ⟨fun h e he => (le_atomsVal he).trans h, fun h => ?_⟩
  induction l with
  | nil => exact Nat.zero_le _
  | cons d l ih =>
    have hd : atomsVal ν (d :: l) = Max.max (atomVal ν d) (atomsVal ν l) := rfl
    have h1 := h d (by simp)
    have h2 := ih (fun e he => h e (by simp [he]))
    rw [hd]; omega

theorem minOf_eq (l : List (Option String × Nat)) : minOf l = atomsVal (fun _ => 0) l := by
  induction l with
  | nil => rfl
  | cons e l ih =>
    obtain ⟨v, o⟩ := e
    have h1 : minOf ((v, o) :: l) = Nat.max o (minOf l) := rfl
    have h2 : atomsVal (fun _ => 0) ((v, o) :: l) =
      Max.max (atomVal (fun _ => 0) (v, o)) (atomsVal (fun _ => 0) l) := rfl
    rw [h1, h2, ih]
    cases v <;> simp [atomVal]

theorem minOf_le (ν : String → Nat) (l : List (Option String × Nat)) : minOf l ≤ atomsVal ν l := by
  rw [minOf_eq, atomsVal_le]
  intro e he
  refine le_trans ?_ (le_atomsVal he)
  obtain ⟨v, o⟩ := e
  cases v <;> simp [atomVal]

theorem offset_le_minOf {l : List (Option String × Nat)} {e : Option String × Nat} (h : e ∈ l) :
    e.2 ≤ minOf l := by
  rw [minOf_eq]
  refine le_trans ?_ (le_atomsVal h)
  obtain ⟨v, o⟩ := e
  cases v <;> simp [atomVal]

/-- The comparison of atoms is exact. -/
theorem all_dominated (as bs : List (Option String × Nat)) :
    as.all (dominated bs) = true ↔ ∀ ν, atomsVal ν as ≤ atomsVal ν bs := by
  rw [List.all_eq_true]
  constructor
  · intro h ν
    rw [atomsVal_le]
    intro e he
    have hd := h e he
    obtain ⟨v, o⟩ := e
    cases v with
    | none =>
      simp only [dominated, decide_eq_true_eq] at hd
      exact hd.trans (minOf_le ν bs)
    | some v =>
      simp only [dominated, List.any_eq_true, decide_eq_true_eq] at hd
      obtain ⟨⟨w, p⟩, hw, h1, h2⟩ := hd
      simp only at h1 h2
      subst h1
      refine le_trans ?_ (le_atomsVal hw)
      simp only [atomVal]; omega
  · intro h e he
    obtain ⟨v, o⟩ := e
    cases v with
    | none =>
      have h0 := (le_atomsVal (ν := fun _ => 0) he).trans (h fun _ => 0)
      rw [← minOf_eq] at h0
      change o ≤ minOf bs at h0
      simpa only [dominated, decide_eq_true_eq] using h0
    | some v =>
      have h1 := (le_atomsVal (ν := fun x => if x = v then minOf bs + 1 else 0) he).trans (h _)
      simp only [dominated, List.any_eq_true, decide_eq_true_eq]
      by_contra hc
      push Not at hc
      have h2 : atomsVal (fun x => if x = v then minOf bs + 1 else 0) bs ≤ minOf bs + o := by
        rw [atomsVal_le]
        rintro ⟨w, p⟩ hp
        have h3 := offset_le_minOf hp
        have h4 := hc _ hp
        cases w with
        | none => simp only [atomVal]; simp only at h3; omega
        | some w =>
          simp only [atomVal]
          simp only [Option.some.injEq] at h3 h4
          split
          · rename_i e; have := h4 e; omega
          · omega
      simp only [atomVal, if_true] at h1
      omega

theorem leqLinear_spec {a b : LNat} (ha : imaxes a = 0) (hb : imaxes b = 0) :
    ∃ r, leqLinear a b = some r ∧ (r = true ↔ ∀ ν, a.val ν ≤ b.val ν) := by
  obtain ⟨x, ex, hx⟩ := atoms_spec ha 0
  obtain ⟨y, ey, hy⟩ := atoms_spec hb 0
  refine ⟨x.all (dominated y), by simp only [leqLinear, ex, ey], ?_⟩
  rw [all_dominated]
  simp only [hx, hy, Nat.add_zero]

/-! ### The recursion -/

/-- The names the recursion introduces are new. -/
def Fresh (a b : LNat) : Prop :=
  ∀ x, x ∈ pivots a ∨ x ∈ pivots b → ∀ y, y ∈ a.names ∨ y ∈ b.names → y ≠ x ++ "✦"

theorem append_star {x y : String} (h : x ++ "✦" = y ++ "✦") : x = y := by
  have := congrArg String.toList h
  simp only [String.toList_append] at this
  exact String.toList_injective (List.append_cancel_right this)

theorem val_congr {a : LNat} {ν μ : String → Nat} (h : ∀ x ∈ a.names, ν x = μ x) : a.val ν = a.val μ := by
  induction a with
  | const n => rfl
  | var v => exact h v (by simp [LNat.names])
  | succ l ih => simp only [LNat.val, ih h]
  | max a b i1 i2 =>
    simp only [LNat.names, List.mem_append] at h
    simp only [LNat.val, i1 fun x hx => h x (.inl hx), i2 fun x hx => h x (.inr hx)]
  | imax a b i1 i2 =>
    simp only [LNat.names, List.mem_append] at h
    simp only [LNat.val, i1 fun x hx => h x (.inl hx), i2 fun x hx => h x (.inr hx)]

/-- The case distinction on a variable is exact. -/
theorem split_exact {a b : LNat} {v : String} (hf : ∀ y, y ∈ a.names ∨ y ∈ b.names → y ≠ v ++ "✦") :
    (∀ ν, a.val ν ≤ b.val ν) ↔
      (∀ ν, (substL v (.const 0) a).val ν ≤ (substL v (.const 0) b).val ν) ∧
      (∀ ν, (substL v (above v) a).val ν ≤ (substL v (above v) b).val ν) := by
  constructor
  · intro h
    exact ⟨fun ν => by rw [substL_val, substL_val]; exact h _,
      fun ν => by rw [substL_val, substL_val]; exact h _⟩
  · rintro ⟨h0, h1⟩ ν
    by_cases hv : ν v = 0
    · have := h0 ν
      rw [substL_val, substL_val] at this
      have e : (fun x => if x = v then (LNat.const 0).val ν else ν x) = ν := by
        funext x; split
        · rename_i e; rw [e, hv]; rfl
        · rfl
      rwa [e] at this
    · have := h1 (fun x => if x = v ++ "✦" then ν v - 1 else ν x)
      rw [substL_val, substL_val] at this
      have key : ∀ c : LNat, (∀ y ∈ c.names, y ≠ v ++ "✦") →
          c.val (fun x => if x = v then (above v).val (fun x => if x = v ++ "✦" then ν v - 1 else ν x)
            else if x = v ++ "✦" then ν v - 1 else ν x) = c.val ν := by
        intro c hc
        refine val_congr fun x hx => ?_
        by_cases hxv : x = v
        · subst hxv
          simp only [if_true, above, LNat.val]; omega
        · simp only [if_neg hxv, if_neg (hc x hx)]
      rwa [key a fun y hy => hf y (.inl hy), key b fun y hy => hf y (.inr hy)] at this

theorem both_spec {x y : Option Bool} {P Q : Prop} (hx : ∃ r, x = some r ∧ (r = true ↔ P))
    (hy : ∃ r, y = some r ∧ (r = true ↔ Q)) : ∃ r, both x y = some r ∧ (r = true ↔ P ∧ Q) := by
  obtain ⟨r, rfl, hr⟩ := hx
  obtain ⟨s, rfl, hs⟩ := hy
  cases r with
  | false => exact ⟨false, rfl, by simp at hr; simp [hr]⟩
  | true => exact ⟨s, rfl, by simp at hr; simp [hr, hs]⟩

theorem or_pivot {a b : LNat} {v : String} (h : (pivot a).or (pivot b) = some v) :
    v ∈ pivots a ∨ v ∈ pivots b := by
  rcases Option.or_eq_some_iff.1 h with h | ⟨_, h⟩
  · exact .inl (pivot_mem h)
  · exact .inr (pivot_mem h)

theorem flat_zero : Flat (.const 0) := .inl ⟨0, rfl⟩

theorem flat_above (v : String) : Flat (above v) := .inr ⟨_, rfl⟩

theorem Fresh.split {a b r : LNat} {v : String} (hr : Flat r) (hn : ∀ x ∈ r.names, x = v ++ "✦")
    (hf : Fresh a b) (ha : Simplified a) (hb : Simplified b) :
    Fresh (simp (substL v r a)) (simp (substL v r b)) := by
  intro x hx y hy
  have hx' : (x ∈ pivots a ∨ x ∈ pivots b) ∧ x ≠ v := by
    rcases hx with hx | hx
    · have := (split_counts hr ha).2.2 x hx; exact ⟨.inl this.1, this.2⟩
    · have := (split_counts hr hb).2.2 x hx; exact ⟨.inr this.1, this.2⟩
  have hy' : (y ∈ a.names ∨ y ∈ b.names) ∨ y ∈ r.names := by
    rcases hy with hy | hy
    · rcases substL_names (simp_names hy) with h | h <;> tauto
    · rcases substL_names (simp_names hy) with h | h <;> tauto
  rcases hy' with hy' | hy'
  · exact hf x hx'.1 y hy'
  · rw [hn y hy']
    exact fun e => hx'.2 (append_star e).symm

/-- With enough fuel the recursion ends, and its answer is exact. -/
theorem leqAux_spec : ∀ (f : Nat) {a b : LNat}, imaxes a + imaxes b ≤ f → Simplified a → Simplified b →
    Fresh a b → ∃ r, leqAux f a b = some r ∧ (r = true ↔ ∀ ν, a.val ν ≤ b.val ν) := by
  intro f
  induction f with
  | zero =>
    intro a b h ha hb hf
    unfold leqAux
    cases e : (pivot a).or (pivot b) with
    | none => exact leqLinear_spec (by omega) (by omega)
    | some v =>
      exfalso
      rcases or_pivot e with h' | h'
      · have := (split_counts flat_zero ha).2.1 h'; omega
      · have := (split_counts flat_zero hb).2.1 h'; omega
  | succ f ih =>
    intro a b h ha hb hf
    unfold leqAux
    cases e : (pivot a).or (pivot b) with
    | none =>
      rw [Option.or_eq_none_iff] at e
      exact leqLinear_spec (pivot_none e.1 ha) (pivot_none e.2 hb)
    | some v =>
      have hv := or_pivot e
      have count : ∀ r, Flat r → imaxes (simp (substL v r a)) + imaxes (simp (substL v r b)) ≤ f := by
        intro r hr
        obtain ⟨a1, a2, -⟩ := split_counts (v := v) hr ha
        obtain ⟨b1, b2, -⟩ := split_counts (v := v) hr hb
        rcases hv with hv | hv
        · have := a2 hv; omega
        · have := b2 hv; omega
      rw [split_exact (v := v) (hf v hv)]
      have h0 := ih (count _ flat_zero) (simp_simplified _) (simp_simplified _)
        (hf.split flat_zero (by simp [LNat.names]) ha hb)
      have h1 := ih (count _ (flat_above v)) (simp_simplified _) (simp_simplified _)
        (hf.split (flat_above v) (by simp [LNat.names, above]) ha hb)
      simp only [simp_val] at h0 h1
      exact both_spec h0 h1

/-- More fuel makes no difference. -/
theorem leqAux_mono : ∀ (f g : Nat) {a b : LNat} {r : Bool}, leqAux f a b = some r → f ≤ g →
    leqAux g a b = some r := by
  intro f
  induction f with
  | zero =>
    intro g a b r h _
    unfold leqAux at h ⊢
    cases e : (pivot a).or (pivot b) with
    | none => simpa only [e] using h
    | some v => simp [e] at h
  | succ f ih =>
    intro g a b r h hg
    obtain ⟨g, rfl⟩ : ∃ g', g = g' + 1 := ⟨g - 1, by omega⟩
    unfold leqAux at h ⊢
    cases e : (pivot a).or (pivot b) with
    | none => simpa only [e] using h
    | some v =>
      simp only [e] at h ⊢
      cases h0 : leqAux f (simp (substL v (.const 0) a)) (simp (substL v (.const 0) b)) with
      | none => simp [h0, both] at h
      | some r0 =>
        rw [ih g h0 (by omega)]
        cases r0 with
        | false => simpa [h0, both] using h
        | true =>
          simp only [h0, both] at h ⊢
          exact ih g h (by omega)

/-- The equation of the code, which carries no fuel. -/
theorem leq_equation {a b : LNat} (ha : Simplified a) (hb : Simplified b) (hf : Fresh a b) :
    (∃ r, lnatLeq a b = some r) ∧
      lnatLeq a b = match (pivot a).or (pivot b) with
        | none => leqLinear a b
        | some v =>
          both (lnatLeq (simp (substL v (.const 0) a)) (simp (substL v (.const 0) b)))
            (lnatLeq (simp (substL v (above v) a)) (simp (substL v (above v) b))) := by
  obtain ⟨r, hr, -⟩ := leqAux_spec _ (Nat.le_refl _) ha hb hf
  refine ⟨⟨r, hr⟩, ?_⟩
  have e : lnatLeq a b = leqAux (imaxes a + imaxes b) a b := rfl
  rw [e]
  unfold leqAux
  cases e : (pivot a).or (pivot b) with
  | none => rfl
  | some v =>
    have hv := or_pivot e
    have count : ∀ r, Flat r → imaxes (simp (substL v r a)) + imaxes (simp (substL v r b)) <
        imaxes a + imaxes b := by
      intro r hr
      obtain ⟨a1, a2, -⟩ := split_counts (v := v) hr ha
      obtain ⟨b1, b2, -⟩ := split_counts (v := v) hr hb
      rcases hv with hv | hv
      · have := a2 hv; omega
      · have := b2 hv; omega
    cases hn : imaxes a + imaxes b with
    | zero => have := count _ flat_zero; omega
    | succ n =>
      simp only
      obtain ⟨r0, hr0, -⟩ := leqAux_spec _ (Nat.le_refl _) (simp_simplified (substL v (.const 0) a))
        (simp_simplified (substL v (.const 0) b)) (hf.split flat_zero (by simp [LNat.names]) ha hb)
      obtain ⟨r1, hr1, -⟩ := leqAux_spec _ (Nat.le_refl _) (simp_simplified (substL v (above v) a))
        (simp_simplified (substL v (above v) b))
        (hf.split (flat_above v) (by simp [LNat.names, above]) ha hb)
      have c0 := count _ flat_zero
      have c1 := count _ (flat_above v)
      simp only [lnatLeq, hr0, hr1]
      rw [leqAux_mono _ n hr0 (by omega), leqAux_mono _ n hr1 (by omega)]

/-- The equation of `simp_lnat` for `IMax`, with the calls the code makes. -/
theorem simp_equation (a b : LNat) :
    (simp b = .const 0 → simp (.imax a b) = .const 0) ∧
    (∀ n, simp b = .const (n + 1) → simp (.imax a b) = simp (.max (simp a) (simp b))) ∧
    (∀ l, simp b = .succ l → simp (.imax a b) = simp (.max (simp a) (simp b))) ∧
    (∀ b1 b2, simp b = .max b1 b2 →
      simp (.imax a b) = simp (.max (.imax (simp a) b1) (.imax (simp a) b2))) ∧
    (∀ b1 b2, simp b = .imax b1 b2 → simp (.imax a b) = simp (.imax (.max (simp a) b1) b2)) ∧
    (∀ v, simp b = .var v → simp (.imax a b) = .imax (simp a) (simp b)) := by
  have ha := simp_of_simplified (simp_simplified a)
  have hb := simp_of_simplified (simp_simplified b)
  have hsb := simp_simplified b
  refine ⟨fun h => ?_, fun n h => ?_, fun l h => ?_, fun b1 b2 h => ?_, fun b1 b2 h => ?_, fun v h => ?_⟩
  · simp only [simp, h, simpIMax]
  · simp only [simp, ha, hb, h, simpIMax]
  · simp only [simp, ha, hb]; rw [h]; rfl
  · rw [h] at hsb
    simp only [simp, h, simpIMax, ha, simp_of_simplified hsb.1, simp_of_simplified hsb.2]
  · rw [h] at hsb
    cases b2 with
    | var v => simp only [simp, h, simpIMax, ha, simp_of_simplified (a := b1) hsb]
    | _ => exact absurd hsb (by simp [Simplified])
  · simp only [simp, h, simpIMax]

end Verif.Level
